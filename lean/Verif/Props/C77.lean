import Verif.Spec.Policy
import Verif.Props.C36Limits
import Verif.Props.C70

/-!
# C77: keys are used as their holders say

What holders say is in signatures: how long a signature or a key is good, what a key is meant for, which subkeys belong to it. The library uses none of it: what it does with a
key is determined by the key packets alone, and by whether there are revocations.
-/
namespace OpenPGP
open Policy Rfc
variable {E : Type}

/-! ## The key packets decide -/

theorem keyPart_none_iff (b : Body E) : b.keyPart = none ↔ ¬ (b.tag = 5 ∨ b.tag = 6 ∨ b.tag = 7 ∨ b.tag = 14) := by
  cases b <;> simp [Body.keyPart, Body.tag] <;> omega

theorem keyPackets_cons (p : Pkt E) (ps : List (Pkt E)) : keyPackets (p :: ps) = if p.body.keyPart = none then keyPackets ps else p.body :: keyPackets ps := by
  unfold keyPackets
  rw [List.map_cons, List.filter_cons]
  by_cases h : p.body.keyPart = none
  · rw [if_pos h, if_neg (by simpa using (keyPart_none_iff _).mp h)]
  · rw [if_neg h, if_pos (by simpa using not_not.mp ((not_congr (keyPart_none_iff _)).mp h))]

theorem find_signing (l : List (Pkt E)) : (l.find? fun p => match p.body.keyPart with | some kp => canSign kp.pka | none => false).map (·.body) =
    (keyPackets l).find? fun b => match b.keyPart with | some kp => canSign kp.pka | none => false := by
  induction l with
  | nil => rfl
  | cons p ps ih =>
    rw [keyPackets_cons]
    cases h : p.body.keyPart with
    | none =>
      rw [if_pos rfl, List.find?_cons_of_neg (by simp [h])]
      exact ih
    | some kp =>
      rw [if_neg (by simp)]
      by_cases hc : canSign kp.pka = true
      · rw [List.find?_cons_of_pos (by simpa [h] using hc), List.find?_cons_of_pos (by simpa [h] using hc)]
        rfl
      · rw [List.find?_cons_of_neg (by simpa [h] using hc), List.find?_cons_of_neg (by simpa [h] using hc)]
        exact ih

theorem meaningful_layout {k : KeyObj E} (h : k.meaningful = .ok true) :
    ∃ key subkey, KeyObj.tags k.kind = some (key, subkey) ∧ TransferableKey false key subkey (k.packets.map (·.body)) := by
  cases ht : KeyObj.tags k.kind with
  | none =>
    rw [KeyObj.meaningful, KeyObj.meaningfulBodies, ht] at h
    simp at h
  | some x => exact ⟨x.1, x.2, rfl, (C30_meaningful_iff k.kind x.1 x.2 ht _).mp h⟩

theorem meaningful_head {k : KeyObj E} (h : k.meaningful = .ok true) : ∃ p ps kp, k.packets = p :: ps ∧ p.body.keyPart = some kp := by
  obtain ⟨key, subkey, ht, primary, revs, users, subkeys, hl, hp, -⟩ := meaningful_layout h
  cases hk : k.packets with
  | nil => rw [hk] at hl; simp at hl
  | cons p ps =>
    rw [hk, List.map_cons, List.cons.injEq] at hl
    cases hkp : p.body.keyPart with
    | none =>
      rw [keyPart_none_iff, hl.1, hp] at hkp
      obtain ⟨hh, -⟩ := tags_cases ht
      omega
    | some kp => exact ⟨p, ps, kp, rfl, hkp⟩

theorem same_keyid {k k' : KeyObj E} (h : k.meaningful = .ok true) (h' : k'.meaningful = .ok true) (hs : keyPackets k.packets = keyPackets k'.packets) (cr : Crypto) :
    k.keyid cr = k'.keyid cr := by
  obtain ⟨p, ps, kp, e, hp⟩ := meaningful_head h
  obtain ⟨p', ps', kp', e', hp'⟩ := meaningful_head h'
  rw [e, e', keyPackets_cons, keyPackets_cons, if_neg (by simp [hp]), if_neg (by simp [hp']), List.cons.injEq] at hs
  unfold KeyObj.keyid
  rw [h, h', e, e']
  simp only [Out.ok_bind, hs.1]

theorem same_signing {k k' : KeyObj E} (h : k.meaningful = .ok true) (h' : k'.meaningful = .ok true) (hs : keyPackets k.packets = keyPackets k'.packets) :
    signingFields k = signingFields k' ∧ signerOf k = signerOf k' := by
  have := (find_signing k.packets).trans ((congrArg _ hs).trans (find_signing k'.packets).symm)
  unfold signingFields signerOf KeyObj.findSigningKey
  rw [h, h']
  simp only [Out.ok_bind, Bool.not_true, Bool.false_eq_true, if_false, Out.pure_eq]
  revert this
  generalize List.find? _ k.packets = o
  generalize List.find? _ k'.packets = o'
  intro this
  cases o with
  | none =>
    cases o' with
    | none => exact ⟨rfl, rfl⟩
    | some p => simp at this
  | some p =>
    cases o' with
    | none => simp at this
    | some p' =>
      simp only [Option.map_some, Option.some.injEq] at this
      simp only [this]
      exact ⟨trivial, trivial⟩

/-- **Verdicts.** Two well-formed key objects with the same key packets give the same verdict on every signature: nothing their signatures say about expiry, purpose, ownership or
revocation of the keys is looked at. -/
theorem C77_verify (cr : Crypto) (z : Zip) (rawE : E → Bytes) (readE : Bytes → Out E) (k k' : KeyObj E) (h : k.meaningful = .ok true) (h' : k'.meaningful = .ok true)
    (hs : keyPackets k.packets = keyPackets k'.packets) :
    (∀ data sig, verifyDetached cr rawE k data sig = verifyDetached cr rawE k' data sig) ∧ (∀ m, verifyCleartext cr rawE k m = verifyCleartext cr rawE k' m) ∧
      (∀ sig, verifyTimestamp cr rawE k sig = verifyTimestamp cr rawE k' sig) ∧ ∀ depth m, verifyBinary cr z rawE readE depth k m = verifyBinary cr z rawE readE depth k' m := by
  have hd : ∀ sig v i, verifyDocument cr k sig v i = verifyDocument cr k' sig v i := by
    intro sig v i
    unfold verifyDocument
    rw [h, h', same_keyid h h' hs, (same_signing h h' hs).1]
  have hp : ∀ ps, verifySigned cr rawE k ps = verifySigned cr rawE k' ps := by
    intro ps
    unfold verifySigned
    rw [(same_signing h h' hs).1]
  refine ⟨fun _ _ => hd _ _ _, fun _ => hd _ _ _, fun _ => hd _ _ _, fun depth => ?_⟩
  induction depth with
  | zero => intro m; rfl
  | succ n ih =>
    intro m
    unfold verifyBinary
    rw [h, h', hp]
    simp only [ih]

/-- **Signing.** Two well-formed secret key objects with the same key packets make the same cleartext signatures, timestamps and signed messages; the same detached signatures if the
library finds both revoked or both not revoked. -/
theorem C77_sign (cr : Crypto) (z : Zip) (rawE : E → Bytes) (readE : Bytes → Out E) (depth : Nat) (a : SignArgs E) (k' : KeyObj E) (hk : k'.kind = a.pri.kind)
    (h : a.pri.meaningful = .ok true) (h' : k'.meaningful = .ok true) (hs : keyPackets a.pri.packets = keyPackets k'.packets) (now : Nat) (draws : List Nat) :
    (∀ text, signCleartext cr rawE { a with pri := k' } now draws text = signCleartext cr rawE a now draws text) ∧
      (∀ time, signTimestamp cr rawE { a with pri := k' } now draws time = signTimestamp cr rawE a now draws time) ∧
      (∀ filename data comp, signBinary cr z rawE readE depth { a with pri := k' } now draws filename data comp = signBinary cr z rawE readE depth a now draws filename data comp) ∧
      (k'.revokeCheck = a.pri.revokeCheck → ∀ data, signDetached cr rawE { a with pri := k' } now draws data = signDetached cr rawE a now draws data) := by
  have hv : SignArgs.valid { a with pri := k' } = a.valid := by
    unfold SignArgs.valid
    simp only [hk, h, h']
  have hg : signerOf k' = signerOf a.pri := (same_signing h' h hs.symm).2
  have hm : ∀ t sig input, makeSig cr { a with pri := k' } draws t sig input = makeSig cr a draws t sig input := fun _ _ _ => rfl
  refine ⟨fun text => ?_, fun time => ?_, fun filename data comp => ?_, fun hr data => ?_⟩
  · unfold signCleartext; rw [hv]; simp only [hg, hm]
  · unfold signTimestamp; rw [hv]; simp only [hg, hm]
  · unfold signBinary; rw [hv]; simp only [hg, hm]
  · unfold signDetached; rw [hv]; simp only [hg, hm, hr]

/-! ## Recipients -/

theorem transferable_last {key subkey : Nat} {l : List (Body E)} (h : TransferableKey false key subkey l) : ∃ b, l.getLast? = some b ∧ (b.tag = 2 ∨ b.tag = 13 ∨ b.tag = 17) := by
  obtain ⟨primary, revs, users, subkeys, rfl, -, hr, hu, ⟨g, hg, -⟩, hs, -⟩ := h
  have sig : ∀ {P : UInt8 → Prop} {b : Body E}, SigOf P b → b.tag = 2 := by
    rintro P b ⟨s, rfl, -⟩; rfl
  have main : ∃ b, (revs ++ users.flatten ++ subkeys.flatten).getLast? = some b ∧ (b.tag = 2 ∨ b.tag = 13 ∨ b.tag = 17) := by
    have ne : revs ++ users.flatten ++ subkeys.flatten ≠ [] := by
      intro e
      simp only [List.append_eq_nil_iff, List.flatten_eq_nil_iff] at e
      have := e.1.2 g hg
      rcases hu g hg with ⟨u, sigs, -⟩ | ⟨u, sigs, -⟩ <;> simp at this
    refine ⟨_, List.getLast?_eq_some_getLast ne, ?_⟩
    by_cases h0 : subkeys = []
    · subst h0
      have hm := List.getLast_mem ne
      simp only [List.flatten_nil, List.append_nil] at hm ⊢
      rcases List.mem_append.mp hm with hm | hm
      · exact .inl (sig (hr _ hm))
      · obtain ⟨g', hg', hm⟩ := List.mem_flatten.mp hm
        rcases hu g' hg' with ⟨u, sigs, hc⟩ | ⟨u, sigs, hc⟩
        · rcases List.mem_cons.mp hm with e | hm
          · exact .inr (.inl (by rw [e]; rfl))
          · rcases hc _ hm with hc | hc <;> exact .inl (sig hc)
        · rcases List.mem_cons.mp hm with e | hm
          · exact .inr (.inr (by rw [e]; rfl))
          · exact .inl (sig (hc _ hm))
    · obtain ⟨init, last, rfl⟩ : ∃ init last, subkeys = init ++ [last] := ⟨_, _, (List.dropLast_append_getLast h0).symm⟩
      obtain ⟨kk, sigs, rfl, -, hsig, s0, hs0, -⟩ := hs last (by simp)
      have hne : sigs ≠ [] := by rintro rfl; cases hs0
      refine .inl ?_
      have e : (revs ++ users.flatten ++ (init ++ [kk :: sigs]).flatten).getLast ne = sigs.getLast hne := by
        simp [hne]
      rw [e]
      exact sig (hsig _ (List.getLast_mem hne))
  obtain ⟨b, hb, ht⟩ := main
  refine ⟨b, ?_, ht⟩
  rw [List.append_assoc] at hb ⊢
  rw [List.getLast?_cons, hb]
  rfl

theorem findEncryptKey_eq (cur : Option KeyPkt) : ∀ (l : List (Pkt E)), (∃ p, l.getLast? = some p ∧ p.body.keyPart = none) →
    findEncryptKey cur l = ((keyPackets l).filterMap Body.keyPart).find? fun kp => canEncrypt kp.pka := by
  intro l
  induction l generalizing cur with
  | nil => rintro ⟨p, h, -⟩; simp at h
  | cons p ps ih =>
    rintro ⟨q, hq, hn⟩
    cases ps with
    | nil =>
      obtain rfl : p = q := by simpa using hq
      unfold findEncryptKey
      rw [hn, keyPackets_cons, if_pos hn]
      rfl
    | cons p' ps' =>
      have hq' : (p' :: ps').getLast? = some q := by rw [List.getLast?_cons_cons] at hq; exact hq
      rw [findEncryptKey, keyPackets_cons]
      cases hk : p.body.keyPart with
      | none =>
        rw [if_pos rfl]
        exact ih none ⟨q, hq', hn⟩
      | some kp =>
        rw [if_neg (by simp), List.filterMap_cons, hk]
        dsimp only
        by_cases hc : canEncrypt kp.pka = true
        · rw [if_pos hc, List.find?_cons_of_pos (by exact hc)]
        · rw [if_neg hc, List.find?_cons_of_neg (by exact hc)]
          exact ih (some kp) ⟨q, hq', hn⟩

theorem findEncryptKey_meaningful {k : KeyObj E} (h : k.meaningful = .ok true) :
    findEncryptKey none k.packets = ((keyPackets k.packets).filterMap Body.keyPart).find? fun kp => canEncrypt kp.pka := by
  obtain ⟨key, subkey, -, hl⟩ := meaningful_layout h
  obtain ⟨b, hb, ht⟩ := transferable_last hl
  refine findEncryptKey_eq none _ ?_
  rw [List.getLast?_map] at hb
  cases hp : k.packets.getLast? with
  | none => rw [hp] at hb; simp at hb
  | some p =>
    rw [hp, Option.map_some, Option.some.injEq] at hb
    exact ⟨p, rfl, by rw [keyPart_none_iff, hb]; omega⟩

theorem find_split {f : KeyPkt → Bool} {kp : KeyPkt} : ∀ {l : List (Body E)}, (l.filterMap Body.keyPart).find? f = some kp →
    ∃ before x after, l = before ++ x :: after ∧ x.keyPart = some kp ∧ f kp = true ∧ ∀ y ∈ before, ∀ q, y.keyPart = some q → ¬ f q = true := by
  intro l
  induction l with
  | nil => intro h; simp at h
  | cons b bs ih =>
    intro h
    cases hb : b.keyPart with
    | none =>
      rw [List.filterMap_cons, hb] at h
      obtain ⟨before, x, after, rfl, h1, h2, h3⟩ := ih h
      refine ⟨b :: before, x, after, rfl, h1, h2, ?_⟩
      intro y hy q hq
      rcases List.mem_cons.mp hy with rfl | hy
      · rw [hb] at hq; cases hq
      · exact h3 y hy q hq
    | some kb =>
      rw [List.filterMap_cons, hb] at h
      dsimp only at h
      by_cases hf : f kb = true
      · rw [List.find?_cons_of_pos hf] at h
        obtain rfl := Option.some.inj h
        exact ⟨[], b, bs, rfl, hb, hf, fun y hy => absurd hy (by simp)⟩
      · rw [List.find?_cons_of_neg hf] at h
        obtain ⟨before, x, after, rfl, h1, h2, h3⟩ := ih h
        refine ⟨b :: before, x, after, rfl, h1, h2, ?_⟩
        intro y hy q hq
        rcases List.mem_cons.mp hy with rfl | hy
        · rw [hb] at hq; obtain rfl := Option.some.inj hq; exact hf
        · exact h3 y hy q hq

section
variable (cr : Crypto) (z : Zip) (rawE : E → Bytes)

/-- **Encrypting.** Two well-formed key objects that the library does not find revoked and that have the same key packets are sent the same messages. -/
theorem C77_encrypt (k k' : KeyObj E) (h : k.meaningful = .ok true) (h' : k'.meaningful = .ok true) (hr : k.revokeCheck = .ok .no) (hr' : k'.revokeCheck = .ok .no)
    (hs : keyPackets k.packets = keyPackets k'.packets) (a : EncArgs) (sk draws : Bytes) (eph : Nat) (rand : Bytes) :
    encryptPka cr z rawE a k sk draws eph rand = encryptPka cr z rawE a k' sk draws eph rand := by
  unfold encryptPka
  rw [h, h', hr, hr', findEncryptKey_meaningful h, findEncryptKey_meaningful h', hs]

/-- **The recipient** is the first key packet whose algorithm can encrypt (RSA 1 and 2, ElGamal 16): the primary key if it is such a one, whatever it is meant for. -/
theorem C77_recipient (k : KeyObj E) (h : k.meaningful = .ok true) (a : EncArgs) (sk draws : Bytes) (eph : Nat) (rand : Bytes) (m : Msg E)
    (hm : encryptPka cr z rawE a k sk draws eph rand = .ok m) (hne : m.packets ≠ []) :
    ∃ before x after kp kid c e, keyPackets k.packets = before ++ x :: after ∧ x.keyPart = some kp ∧ (kp.pka = 1 ∨ kp.pka = 2 ∨ kp.pka = 16) ∧
      (∀ y ∈ before, ∀ q, y.keyPart = some q → ¬ (q.pka = 1 ∨ q.pka = 2 ∨ q.pka = 16)) ∧ kp.keyid cr = .ok kid ∧
      m.packets = [⟨.new, false, .pkesk ⟨3, kid, kp.pka, c⟩⟩, e] := by
  have can : ∀ p : UInt8, canEncrypt p = true ↔ p = 1 ∨ p = 2 ∨ p = 16 := by intro p; simp [canEncrypt, or_assoc]
  unfold encryptPka at hm
  split at hm
  · obtain rfl := Out.ok.inj hm; exact absurd rfl hne
  rw [h, Out.ok_bind] at hm
  simp only [Bool.not_true, Bool.false_eq_true, if_false] at hm
  obtain ⟨r, hr, hm⟩ := Out.bind_eq_ok.mp hm
  cases r with
  | yes => obtain rfl := Out.ok.inj hm; exact absurd rfl hne
  | error => obtain rfl := Out.ok.inj hm; exact absurd rfl hne
  | no =>
    rw [findEncryptKey_meaningful h] at hm
    dsimp only at hm
    cases hf : ((keyPackets k.packets).filterMap Body.keyPart).find? fun kp => canEncrypt kp.pka with
    | none => rw [hf] at hm; obtain rfl := Out.ok.inj hm; exact absurd rfl hne
    | some kp =>
      rw [hf] at hm
      dsimp only at hm
      obtain ⟨kid, hkid, hm⟩ := Out.bind_eq_ok.mp hm
      obtain ⟨n, -, hm⟩ := Out.bind_eq_ok.mp hm
      split at hm
      · cases hm
      obtain ⟨c, -, hm⟩ := Out.bind_eq_ok.mp hm
      obtain ⟨e, -, hm⟩ := Out.bind_eq_ok.mp hm
      cases e with
      | none => obtain rfl := Out.ok.inj hm; exact absurd rfl hne
      | some e =>
        obtain rfl := Out.ok.inj hm
        obtain ⟨before, x, after, h1, h2, h3, h4⟩ := find_split hf
        exact ⟨before, x, after, kp, kid, c, e, h1, h2, (can _).mp h3, fun y hy q hq hc => h4 y hy q hq ((can _).mpr hc), hkid, rfl⟩

theorem find_of_split {x : KeyPkt} (hx : x.pka = 1 ∨ x.pka = 2 ∨ x.pka = 16) {l before after : List (Body E)} {b : Body E} (e : l = before ++ b :: after) (hb : b.keyPart = some x)
    (hn : ∀ y ∈ before, ∀ q, y.keyPart = some q → ¬ (q.pka = 1 ∨ q.pka = 2 ∨ q.pka = 16)) : (l.filterMap Body.keyPart).find? (fun kp => canEncrypt kp.pka) = some x := by
  have can : ∀ p : UInt8, canEncrypt p = true ↔ p = 1 ∨ p = 2 ∨ p = 16 := by intro p; simp [canEncrypt, or_assoc]
  rw [e, List.filterMap_append, List.filterMap_cons, hb, List.find?_append]
  have : (before.filterMap Body.keyPart).find? (fun kp => canEncrypt kp.pka) = none := by
    rw [List.find?_eq_none]
    intro q hq
    obtain ⟨y, hy, hq⟩ := List.mem_filterMap.mp hq
    rw [can]
    exact hn y hy q hq
  rw [this, Option.none_or]
  exact List.find?_cons_of_pos ((can _).mpr hx)

/-- The parts of a well-formed public key in front of and behind its first subkey. -/
theorem public_parts {k : KeyObj E} (hkind : k.kind = .pub) (h : k.meaningful = .ok true) :
    ∃ (pb : Body E) (revs : List (Body E)) (users subkeys : List (List (Body E))),
      (k.packets.takeWhile (·.body.tag ≠ 14)).map (·.body) = pb :: (revs ++ users.flatten) ∧ (k.packets.dropWhile (·.body.tag ≠ 14)).map (·.body) = subkeys.flatten ∧ pb.tag = 6 ∧
      (∀ r ∈ revs, KeyRevocation r) ∧ (∀ g ∈ users, UserBlock g) ∧ (∃ g ∈ users, IdBlock g) ∧ (∀ g ∈ subkeys, SubkeyBlock false 14 g) := by
  obtain ⟨key, subkey, ht, pb, revs, users, subkeys, hl, h1, h2, h3, h4, h5, -⟩ := meaningful_layout h
  rw [hkind] at ht
  obtain ⟨rfl, rfl⟩ := Prod.mk.inj (Option.some.inj ht)
  have hA : ∀ b ∈ pb :: (revs ++ users.flatten), decide (b.tag ≠ 14) = true := by
    intro b hb
    rw [decide_eq_true_iff]
    rcases List.mem_cons.mp hb with rfl | hb
    · omega
    rcases List.mem_append.mp hb with hb | hb
    · obtain ⟨s, rfl, -⟩ := h2 b hb
      simp [Body.tag]
    · obtain ⟨g, hg, hb⟩ := List.mem_flatten.mp hb
      rcases h3 g hg with ⟨u, sigs, hc⟩ | ⟨u, sigs, hc⟩
      · rcases List.mem_cons.mp hb with rfl | hb
        · simp [Body.tag]
        · rcases hc b hb with hc | hc <;> obtain ⟨s, rfl, -⟩ := hc <;> simp [Body.tag]
      · rcases List.mem_cons.mp hb with rfl | hb
        · simp [Body.tag]
        · obtain ⟨s, rfl, -⟩ := hc b hb
          simp [Body.tag]
  have hD : subkeys.flatten = [] ∨ ∃ b r, subkeys.flatten = b :: r ∧ b.tag = 14 := by
    cases subkeys with
    | nil => exact .inl rfl
    | cons g gs =>
      obtain ⟨kk, sigs, rfl, hk, -⟩ := h5 g (by simp)
      exact .inr ⟨kk, _, rfl, hk⟩
  have hl : k.packets.map (·.body) = (pb :: (revs ++ users.flatten)) ++ subkeys.flatten := hl
  have e1 : (k.packets.takeWhile (·.body.tag ≠ 14)).map (·.body) = (k.packets.map (·.body)).takeWhile (fun b => decide (b.tag ≠ 14)) := by
    rw [List.takeWhile_map]; rfl
  have e2 : (k.packets.dropWhile (·.body.tag ≠ 14)).map (·.body) = (k.packets.map (·.body)).dropWhile (fun b => decide (b.tag ≠ 14)) := by
    rw [List.dropWhile_map]; rfl
  refine ⟨pb, revs, users, subkeys, ?_, ?_, h1, h2, h3, h4, h5⟩
  · rw [e1, hl, List.takeWhile_append_of_pos hA]
    rcases hD with hD | ⟨b, r, hD, hb⟩
    · rw [hD]; simp
    · rw [hD, List.takeWhile_cons_of_neg (by simp [hb])]; simp
  · rw [e2, hl, List.dropWhile_append_of_pos hA]
    rcases hD with hD | ⟨b, r, hD, hb⟩
    · rw [hD]; rfl
    · rw [hD, List.dropWhile_cons_of_neg (by simp [hb])]

/-- **Failure: somebody else's subkey.** Whoever puts a subkey of his own with any signature of the right type (whatever its values) in front of the subkeys of another one's public
key, whose primary key cannot encrypt, gets the messages: the key is well-formed, not revoked, has the same primary key and ID, and what is encrypted to it is what would be encrypted
to the stranger himself. -/
theorem C77_stranger_fails (k : KeyObj E) (hkind : k.kind = .pub) (h : k.meaningful = .ok true) (hr : k.revokeCheck = .ok .no) (primary : KeyPkt)
    (hp : k.packets.head?.bind (·.body.keyPart) = some primary) (hv : primary.version = 4) (hc : ¬ (primary.pka = 1 ∨ primary.pka = 2 ∨ primary.pka = 16)) (x : KeyPkt)
    (hx : x.pka = 1 ∨ x.pka = 2 ∨ x.pka = 16) (s : Tag2 E) (hs : s.type = 0x18) (k' : KeyObj E) (hk' : k' = ⟨.pub, withSubkey x s k.packets⟩) :
    k'.meaningful = .ok true ∧ k'.revokeCheck = .ok .no ∧ k'.packets.head? = k.packets.head? ∧ k'.keyid cr = k.keyid cr ∧
      ∀ (other : KeyObj E) (before after : List (Body E)) (b : Body E), other.meaningful = .ok true → other.revokeCheck = .ok .no →
        keyPackets other.packets = before ++ b :: after → b.keyPart = some x → (∀ y ∈ before, ∀ q, y.keyPart = some q → ¬ (q.pka = 1 ∨ q.pka = 2 ∨ q.pka = 16)) →
        ∀ (a : EncArgs) (sk draws : Bytes) (eph : Nat) (rand : Bytes), encryptPka cr z rawE a k' sk draws eph rand = encryptPka cr z rawE a other sk draws eph rand := by
  subst hk'
  obtain ⟨pb, revs, users, subkeys, e1, e2, h1, h2, h3, h4, h5⟩ := public_parts hkind h
  have eT : k.packets = k.packets.takeWhile (·.body.tag ≠ 14) ++ k.packets.dropWhile (·.body.tag ≠ 14) := List.takeWhile_append_dropWhile.symm
  unfold withSubkey
  revert e1 e2 eT
  generalize k.packets.takeWhile (·.body.tag ≠ 14) = T
  generalize k.packets.dropWhile (·.body.tag ≠ 14) = D
  intro e1 e2 eT
  have hne : revs ++ users.flatten ≠ [] := by
    obtain ⟨g, hg, u, sigs, rfl⟩ := h4
    intro e
    have := List.flatten_eq_nil_iff.mp (List.append_eq_nil_iff.mp e).2 _ hg
    cases this
  obtain ⟨p, q, T', rfl⟩ : ∃ p q T', T = p :: q :: T' := by
    cases T with
    | nil => cases e1
    | cons p T =>
      cases T with
      | nil => rw [List.map_cons, List.cons.injEq] at e1; exact absurd e1.2.symm hne
      | cons q T => exact ⟨p, q, T, rfl⟩
  have hp : p.body.keyPart = some primary := by rw [eT] at hp; exact hp
  have hpb : p.body = pb := by rw [List.map_cons, List.cons.injEq] at e1; exact e1.1
  have hmean : KeyObj.meaningfulBodies .pub (((p :: q :: T') ++ ⟨.new, false, .publicSubkey x⟩ :: ⟨.new, false, .sig s⟩ :: D).map (·.body)) = .ok true := by
    rw [C30_meaningful_iff .pub 6 14 rfl]
    refine ⟨pb, revs, users, [.publicSubkey x, .sig s] :: subkeys, ?_, h1, h2, h3, h4, ?_, ?_⟩
    · rw [List.map_append, e1, List.map_cons, List.map_cons, e2]
      simp
    · intro g hg
      rcases List.mem_cons.mp hg with rfl | hg
      · exact ⟨_, _, rfl, rfl, by intro y hy; rw [List.mem_singleton.mp hy]; exact ⟨s, rfl, by simp⟩, .sig s, by simp, s, rfl, hs⟩
      · exact h5 g hg
    · intro _ kk hkk
      rw [← hpb] at hkk
      have : p.body.keyPart = some kk := by
        rcases hkk with hkk | ⟨t, hkk, ht⟩
        · rw [hkk]; rfl
        · rw [hkk, ← ht]; rfl
      rw [hp] at this
      obtain rfl := Option.some.inj this
      rw [hv]; decide
  have hrev : KeyObj.revokeCheck ⟨.pub, (p :: q :: T') ++ ⟨.new, false, .publicSubkey x⟩ :: ⟨.new, false, .sig s⟩ :: D⟩ = .ok .no := by
    unfold KeyObj.revokeCheck at hr ⊢
    rw [h] at hr
    rw [KeyObj.meaningful, hmean]
    rw [eT] at hr
    simp only [Out.ok_bind, Bool.not_true, Bool.false_eq_true, if_false, List.cons_append] at hr ⊢
    split at hr
    · split at hr <;> cases hr
    · rename_i hq
      split at hr
      · cases hr
      · rename_i hany
        rw [if_neg]
        · rfl
        · simp only [List.any_cons, List.any_append, hs, Bool.not_eq_true, Bool.or_eq_false_iff] at hany ⊢
          exact ⟨hany.1, hany.2.1, hany.2.2.1, trivial, by decide, hany.2.2.2⟩
  refine ⟨hmean, hrev, by rw [eT]; rfl, ?_, ?_⟩
  · unfold KeyObj.keyid
    rw [h, KeyObj.meaningful, hmean, eT]
    rfl
  intro other before after b ho hor hsplit hb hbefore a sk draws eph rand
  have hf : findEncryptKey none ((p :: q :: T') ++ ⟨.new, false, .publicSubkey x⟩ :: ⟨.new, false, .sig s⟩ :: D) = some x := by
    have := findEncryptKey_meaningful (k := ⟨.pub, (p :: q :: T') ++ ⟨.new, false, .publicSubkey x⟩ :: ⟨.new, false, .sig s⟩ :: D⟩) hmean
    rw [this]
    refine find_of_split (before := keyPackets (p :: q :: T')) (b := .publicSubkey x) (after := keyPackets D) hx ?_ rfl ?_
    · unfold keyPackets
      rw [List.map_append, List.filter_append]
      rfl
    · intro y hy q' hq'
      unfold keyPackets at hy
      rw [e1, List.mem_filter] at hy
      rcases List.mem_cons.mp hy.1 with rfl | hm
      · rw [← hpb, hp] at hq'
        obtain rfl := Option.some.inj hq'
        exact hc
      · exfalso
        have none : y.keyPart = none := by
          rcases List.mem_append.mp hm with hm | hm
          · obtain ⟨s, rfl, -⟩ := h2 y hm
            rfl
          · obtain ⟨g, hg, hm⟩ := List.mem_flatten.mp hm
            rcases h3 g hg with ⟨u, sigs, hc⟩ | ⟨u, sigs, hc⟩
            · rcases List.mem_cons.mp hm with rfl | hm
              · rfl
              · rcases hc y hm with hc | hc <;> obtain ⟨s, rfl, -⟩ := hc <;> rfl
            · rcases List.mem_cons.mp hm with rfl | hm
              · rfl
              · obtain ⟨s, rfl, -⟩ := hc y hm
                rfl
        rw [none] at hq'
        cases hq'
  unfold encryptPka
  rw [ho, hor, findEncryptKey_meaningful ho, find_of_split hx hsplit hb hbefore, hrev]
  dsimp only
  rw [hf, KeyObj.meaningful, hmean]

/-! ## Decrypting -/

private def firstSecret (kid : Bytes) : List (Body E) → Out (Option Tag5)
  | [] => .ok none
  | b :: bs =>
    match b.secretPart with
    | none => firstSecret kid bs
    | some t => do
      let pub ← t.getPublic
      let id ← pub.keyid cr
      if id ≠ kid then firstSecret kid bs
      else if canEncrypt t.key.pka then return some t
      else firstSecret kid bs

private theorem findDecryptKey_eq (kid : Bytes) : ∀ (l : List (Pkt E)) (cur : Option Tag5), (∃ p, l.getLast? = some p ∧ p.body.keyPart = none) →
    findDecryptKey cr kid cur l = firstSecret cr kid (keyPackets l) := by
  have sec : ∀ b : Body E, b.keyPart = none → b.secretPart = none := by
    intro b h
    cases hs : b.secretPart with
    | none => rfl
    | some t => rw [keyPart_of_secretPart hs] at h; cases h
  intro l
  induction l with
  | nil => rintro cur ⟨p, h, -⟩; simp at h
  | cons p ps ih =>
    rintro cur ⟨q, hq, hn⟩
    cases ps with
    | nil =>
      obtain rfl : p = q := by simpa using hq
      unfold findDecryptKey
      rw [sec _ hn, keyPackets_cons, if_pos hn]
      rfl
    | cons p' ps' =>
      have hq' : (p' :: ps').getLast? = some q := by rw [List.getLast?_cons_cons] at hq; exact hq
      have ih := fun c => ih c ⟨q, hq', hn⟩
      rw [findDecryptKey, keyPackets_cons]
      cases hs : p.body.secretPart with
      | none =>
        dsimp only
        rw [ih]
        split_ifs
        · rfl
        · rw [firstSecret, hs]
      | some t =>
        rw [if_neg (by rw [keyPart_of_secretPart hs]; simp), firstSecret, hs]
        simp only [ih]

/-- **Decrypting.** Two well-formed key objects with the same key packets decrypt the same messages to the same. -/
theorem C77_decrypt (readE : Bytes → Out E) (depth : Nat) (k k' : KeyObj E) (h : k.meaningful = .ok true) (h' : k'.meaningful = .ok true)
    (hs : keyPackets k.packets = keyPackets k'.packets) (pass : Bytes) (m : Msg E) :
    decryptPka cr z readE depth k pass m = decryptPka cr z readE depth k' pass m := by
  have last : ∀ {k : KeyObj E}, k.meaningful = .ok true → ∃ p, k.packets.getLast? = some p ∧ p.body.keyPart = none := by
    intro k h
    obtain ⟨key, subkey, -, hl⟩ := meaningful_layout h
    obtain ⟨b, hb, ht⟩ := transferable_last hl
    rw [List.getLast?_map] at hb
    cases hp : k.packets.getLast? with
    | none => rw [hp] at hb; simp at hb
    | some p =>
      rw [hp, Option.map_some, Option.some.injEq] at hb
      exact ⟨p, rfl, by rw [keyPart_none_iff, hb]; omega⟩
  unfold decryptPka
  rw [h, h']
  simp only [findDecryptKey_eq cr _ _ none (last h), findDecryptKey_eq cr _ _ none (last h'), hs]

/-! ## Signatures -/

/-- **Failure: what a signature says of itself.** Whatever a version 4 signature by an RSA key says in its subpackets, there is one that verifies. -/
theorem C77_any_subpackets_fails (hcr : cr.Ok) (a : SignArgs E) (t : Tag5) (pri : List Nat) (h : CanSign cr a [] t pri) (h1 : t.key.pka = 1) (h4 : t.key.version = 4)
    (hroom : Room a.hash t.key.mpi) (pub : KeyObj E) (hpub : a.pri.getPublic = .ok pub) (l : List (Sub E)) (type : UInt8) (data : Bytes) :
    ∃ s, s.version = 4 ∧ s.type = type ∧ s.hashed = l ∧ (∃ kid, t.key.keyid cr = .ok kid ∧ s.unhashed = [⟨false, .issuer kid⟩]) ∧
      verifyDetached cr rawE pub data (detachedOf s) = .ok .yes := by
  obtain ⟨f, -, -, -, hkid, -⟩ := C11_keyid cr hcr t.key h4
  set kid := f.drop 12 with hkd
  obtain ⟨i, hi⟩ : ∃ i, sign00Input rawE data (⟨4, type, 1, a.hash, [], [], 0, [], l, [⟨false, .issuer kid⟩]⟩ : Tag2 E) = .ok i :=
    ⟨_, addtrailer_v4 rawE data _ rfl⟩
  obtain ⟨s, hm⟩ := makeSig_rsa hcr h h1 (draws := []) hroom hi
  obtain ⟨j, vals, hj, hr, hsz, hg⟩ := goodDocument_of_makeSig hcr h hpub hkid rfl h1.symm rfl hm
  obtain rfl := Option.some.inj hr
  refine ⟨{ (⟨4, type, 1, a.hash, [], [], 0, [], l, [⟨false, .issuer kid⟩]⟩ : Tag2 E) with left16 := (cr.hash a.hash j).take 2, mpi := vals }, rfl, rfl, rfl, ⟨kid, hkid, rfl⟩, ?_⟩
  rw [C37_detached cr hcr rawE pub hsz]
  exact ⟨_, j, ⟨rfl, _, rfl, rfl⟩, hashed_complete ((addtrailer_iff _ _ _ _).mp hj), hg⟩

/-- **Failure: expired signatures.** A signature that is good for one second of any time in the past verifies: the library knows when it ended (`get_times`), the verification does
not ask. -/
theorem C77_expired_fails (hcr : cr.Ok) (a : SignArgs E) (t : Tag5) (pri : List Nat) (h : CanSign cr a [] t pri) (h1 : t.key.pka = 1) (h4 : t.key.version = 4)
    (hroom : Room a.hash t.key.mpi) (pub : KeyObj E) (hpub : a.pri.getPublic = .ok pub) (created : Nat) (h0 : 0 < created) (hlt : created + 1 < 2 ^ 32) (data : Bytes) :
    ∃ s, s.getTimes = .ok (created, created + 1, 0) ∧ verifyDetached cr rawE pub data (detachedOf s) = .ok .yes := by
  obtain ⟨s, hv, -, hl, ⟨kid, -, hu⟩, hy⟩ := C77_any_subpackets_fails cr rawE hcr a t pri h h1 h4 hroom pub hpub [⟨false, .sigTime created⟩, ⟨false, .sigExpire 1⟩] 0 data
  refine ⟨s, ?_, hy⟩
  rw [C70_get_times s hv, hl, hu]
  simp only [creations, sigLifetimes, keyLifetimes, due, List.filterMap_cons, List.filterMap_nil, List.cons_append, List.nil_append, List.getLastD_cons, List.getLastD_nil]
  rw [if_neg (by omega), if_neg (by omega), if_pos trivial, Nat.mod_eq_of_lt (by omega), Nat.add_comm]

/-! ## Such keys -/

end

/-- A DSA key with a user ID and a certification that says the key ended a second after it was made. -/
def c77Key : KeyObj Empty :=
  ⟨.pub, [⟨.new, false, .publicKey c11Dsa⟩, ⟨.new, false, .userId [97]⟩,
    ⟨.new, false, .sig { c30Sig 0x13 with hashed := [⟨false, .sigTime 1500000000⟩, ⟨false, .keyExpire 1⟩] }⟩]⟩

/-- The same without the certification's subpackets. -/
def c77Plain : KeyObj Empty := ⟨.pub, [⟨.new, false, .publicKey c11Dsa⟩, ⟨.new, false, .userId [97]⟩, ⟨.new, false, .sig (c30Sig 0x13)⟩]⟩

example : c77Key.meaningful = .ok true ∧ c77Plain.meaningful = .ok true ∧ keyPackets c77Key.packets = keyPackets c77Plain.packets ∧ c77Key ≠ c77Plain ∧
    c77Key.revokeCheck = .ok .no ∧ c77Plain.revokeCheck = .ok .no := by decide +kernel

/-- Somebody else's RSA key as a subkey, with a signature without values. -/
example : c77Key.kind = .pub ∧ c77Key.packets.head?.bind (·.body.keyPart) = some c11Dsa ∧ c11Dsa.version = 4 ∧ ¬ (c11Dsa.pka = 1 ∨ c11Dsa.pka = 2 ∨ c11Dsa.pka = 16) ∧
    ((c30Sig 0x18 : Tag2 Empty).type = 0x18) ∧ (c36Tag5.key.pka = 1) ∧
    (KeyObj.meaningful (⟨.pub, withSubkey c36Tag5.key (c30Sig 0x18) c77Key.packets⟩ : KeyObj Empty)) = .ok true := by decide +kernel

example : ∃ pub, (c36Args false).pri.getPublic = .ok pub ∧ CanSign demoCrypto (c36Args false) [] c36Tag5 c36Pri ∧ Room (c36Args false).hash c36Tag5.key.mpi := by
  obtain ⟨pub, h, -⟩ := (c36_canSign false).public
  exact ⟨pub, h, c36_canSign false, c36_room⟩

end OpenPGP
