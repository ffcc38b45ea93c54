import Verif.Props.C36Limits

/-!
# C36: certifying twice

A key that already carries the certification the call would add is returned as it is, whatever the time, the random numbers and the
certification level of the second call. (`sign.cpp:301-314`: the loop over the signatures behind the user ID.)
-/
namespace OpenPGP
open KeyObj

variable {E : Type}

theorem findUser_behind (user : Bytes) : ∀ {ps before behind : List (Pkt E)} {id : Body E}, findUser user ps = some (before, id, behind) →
    ps = before ++ behind ∧ ∀ x, findUser user (before ++ x) = some (before, id, x)
  | [], _, _, _, h => by simp [findUser] at h
  | p :: ps, before, behind, id, h => by
    have step : (findUser user ps).map (fun r => (p :: r.1, r.2)) = some (before, id, behind) →
        ∃ b, before = p :: b ∧ ps = b ++ behind ∧ ∀ x, findUser user (b ++ x) = some (b, id, x) := by
      intro hm
      obtain ⟨⟨b, i, r⟩, hr, e⟩ := Option.map_eq_some_iff.mp hm
      simp only [Prod.mk.injEq] at e
      obtain ⟨rfl, rfl, rfl⟩ := e
      obtain ⟨h1, h2⟩ := findUser_behind user hr
      exact ⟨b, rfl, h1, h2⟩
    rw [findUser] at h
    split at h
    · rename_i u hu
      split at h
      · rename_i hc
        simp only [Option.some.injEq, Prod.mk.injEq] at h
        obtain ⟨rfl, rfl, rfl⟩ := h
        refine ⟨rfl, fun x => ?_⟩
        simp only [List.cons_append, List.nil_append, findUser, hu, hc, if_true]
      · rename_i hc
        obtain ⟨b, rfl, rfl, h2⟩ := step h
        refine ⟨rfl, fun x => ?_⟩
        simp only [List.cons_append, findUser, hu, hc, h2]
        rfl
    · rename_i hu
      obtain ⟨b, rfl, rfl, h2⟩ := step h
      refine ⟨rfl, fun x => ?_⟩
      rw [List.cons_append, findUser]
      split
      · rename_i u hu'
        exact absurd hu' (hu u)
      · rw [h2]; rfl

theorem earlierCerts_append {cr : Crypto} {rawE : E → Bytes} {signer key : KeyPkt} {id : Body E} {s : Tag2 E}
    (hy : verifyCertification cr rawE signer key id s = .ok .yes) {p : Pkt E} (hp : p.body = .sig s) (tail : List (Pkt E)) :
    ∀ {ps sigs rest : List (Pkt E)}, earlierCerts cr rawE signer key id ps = .ok (.none sigs rest) →
      earlierCerts cr rawE signer key id (sigs ++ p :: tail) = .ok .already
  | [], sigs, rest, h => by
    rw [earlierCerts] at h
    cases Out.ok.inj h
    rw [List.nil_append, earlierCerts, hp]
    simp only [hy, Out.ok_bind]
    rfl
  | q :: ps, sigs, rest, h => by
    rw [earlierCerts] at h
    split at h
    · rename_i s' hs'
      obtain ⟨v, hv, h⟩ := Out.bind_eq_ok.mp h
      cases v with
      | error => cases Out.ok.inj h
      | yes => cases Out.ok.inj h
      | no =>
        dsimp only at h
        obtain ⟨r, hr, h⟩ := Out.bind_eq_ok.mp h
        cases r with
        | failed => cases Out.ok.inj h
        | already => cases Out.ok.inj h
        | none sigs' rest' =>
          cases Out.ok.inj h
          rw [List.cons_append, earlierCerts, hs']
          simp only [hv, Out.ok_bind, earlierCerts_append hy hp tail hr]
          rfl
    · cases Out.ok.inj h
      rw [List.nil_append, earlierCerts, hp]
      simp only [hy, Out.ok_bind]
      rfl

/-- Certifying is idempotent: whatever a certification returns, certifying that again for the same user by the same signer (at any
other time, with other random numbers and another certification level) returns it unchanged. -/
theorem C36_twice (cr : Crypto) (hcr : cr.Ok) (rawE : E → Bytes) (a : SignArgs E) (before : List (Pkt E)) (t : Tag5) (pri : List Nat)
    (h : CanSign cr a before t pri) (hv : a.version = 4) (now : Nat) (draws : List Nat) (signee : KeyObj E)
    (user : Bytes) (cert : UInt8) (result pub : KeyObj E) (hpub : a.pri.getPublic = .ok pub) (hown : ∃ own, pub.keyid cr = .ok own ∧ own ≠ [])
    (hs : signPrimaryKey cr rawE a now draws signee user cert = .ok result) (hne : result.packets ≠ [])
    (now' : Nat) (draws' : List Nat) (cert' : UInt8) (hcert' : cert' = 0x10 ∨ cert' = 0x11 ∨ cert' = 0x12 ∨ cert' = 0x13) :
    signPrimaryKey cr rawE a now' draws' result user cert' = .ok result := by
  have hmain := C36_certification cr hcr rawE a before t pri h hv now draws signee user cert result pub hpub hown hs hne
  have hcert2 : isCertification cert' = true := by rcases hcert' with rfl | rfl | rfl | rfl <;> decide
  obtain ⟨pub', hpub', hpk, hpm, hsz, ⟨kp, hsk, hmpi, hkk⟩, -⟩ := h.public
  have nope : ∀ {x : KeyObj E}, (pure noPublicKey : Out (KeyObj E)) = .ok x → x.packets = [] := by
    intro x hx
    cases Out.ok.inj hx
    rfl
  have hs0 := hs
  rw [signPrimaryKey] at hs
  obtain ⟨v, hval, hs⟩ := Out.bind_eq_ok.mp hs
  split at hs
  · exact absurd (nope hs) hne
  rename_i hvt
  obtain ⟨r1, hr1, hs⟩ := Out.bind_eq_ok.mp hs
  cases r1 with
  | yes => exact absurd (nope hs) hne
  | error => exact absurd (nope hs) hne
  | no =>
    dsimp only at hs
    obtain ⟨good, hgood, hs⟩ := Out.bind_eq_ok.mp hs
    cases good with
    | false => exact absurd (nope hs) hne
    | true =>
      simp only [Bool.not_true, Bool.false_eq_true, if_false] at hs
      obtain ⟨r2, hr2, hs⟩ := Out.bind_eq_ok.mp hs
      cases r2 with
      | yes => exact absurd (nope hs) hne
      | error => exact absurd (nope hs) hne
      | no =>
        dsimp only at hs
        split at hs
        · exact absurd (nope hs) hne
        rename_i hcert
        have hcert : isCertification cert = true := by simpa using hcert
        rw [h.signerOf, Out.ok_bind] at hs
        dsimp only at hs
        obtain ⟨hkind, hsm⟩ : signee.kind = .pub ∧ signee.meaningful = .ok true := by
          split at hgood
          · exact absurd (Out.ok.inj hgood) (by decide)
          · rename_i hk; exact ⟨not_not.mp hk, hgood⟩
        cases hp : signee.packets with
        | nil => rw [hp] at hs; exact absurd hs (by simp)
        | cons p0 ps =>
          rw [hp] at hs
          dsimp only at hs
          cases hk0 : p0.body.keyPart with
          | none => rw [hk0] at hs; exact absurd hs (by simp)
          | some key =>
            rw [hk0] at hs
            dsimp only at hs
            cases hfu : findUser user ps with
            | none => rw [hfu] at hs; exact absurd (nope hs) hne
            | some r =>
              obtain ⟨bef, id, behind⟩ := r
              rw [hfu] at hs
              dsimp only at hs
              obtain ⟨hps, hfu'⟩ := findUser_behind user hfu
              obtain ⟨pre, pu, u, hbef, hpid, hid, hcon, -⟩ := findUser_spec user hfu
              obtain ⟨ea, hea, hs'⟩ := Out.bind_eq_ok.mp hs
              -- a second call, on any key that starts with the same packets and answers `already`
              have again : ∀ x, result = ⟨.pub, p0 :: (bef ++ x)⟩ → result.meaningful = .ok true → result.revokeCheck = .ok .no →
                  earlierCerts cr rawE t.key key id x = .ok .already →
                  signPrimaryKey cr rawE a now' draws' result user cert' = .ok result := by
                intro x hx hm hrv hear
                rw [signPrimaryKey, hval, Out.ok_bind, if_neg hvt, hr1, Out.ok_bind]
                dsimp only
                rw [if_neg (by rw [hx]; simp), hm, Out.ok_bind]
                simp only [Bool.not_true, Bool.false_eq_true, if_false]
                rw [hrv, Out.ok_bind]
                dsimp only
                simp only [hcert2, Bool.not_true, Bool.false_eq_true, if_false]
                rw [h.signerOf, Out.ok_bind]
                dsimp only
                have hpk : result.packets = p0 :: (bef ++ x) := by rw [hx]
                simp only [hpk, hk0, hfu', hear, Out.ok_bind]
                rfl
              cases ea with
              | failed => exact absurd (nope hs') hne
              | already =>
                cases Out.ok.inj hs'
                refine again behind ?_ hsm hr2 hea
                rw [← hps, ← hp, ← hkind]
              | none sigs rest =>
                dsimp only at hs'
                obtain ⟨kid, hkid, hs2⟩ := Out.bind_eq_ok.mp hs'
                obtain ⟨os, hos, hs3⟩ := Out.bind_eq_ok.mp hs2
                have hp0 : p0.body.tag = 6 := by
                  rw [KeyObj.meaningful, hkind, C30_meaningful_iff .pub 6 14 rfl, hp] at hsm
                  obtain ⟨p', _, _, _, e, ht, -⟩ := hsm
                  have e1 : p0.body = p' := (List.cons.inj e).1
                  rw [e1]
                  exact ht
                rw [signCertification, if_neg (by simp [hp0]), if_neg (by simp [createSig, hcert]), hk0] at hos
                dsimp only at hos
                obtain ⟨i, vals, n, hi, hn, rfl, hsh⟩ := makeSig_ok hcr h (sig := createSig a.version cert t.key.pka a.hash kid now) rfl
                  (input := signCertInput rawE cert key id) hos
                set s : Tag2 E := { (createSig a.version cert t.key.pka a.hash kid now : Tag2 E) with left16 := (cr.hash a.hash i).take 2, mpi := vals } with hsd
                have hgv : GoodValues cr kp s i := ⟨⟨n, hn⟩, hmpi ▸ hsh⟩
                have hvc : verifyCertification cr rawE kp key id s = .ok .yes :=
                  verifyCertification_of_good hcr (hsk.sized hsz) (hkk.trans hkid) (getKeyid_v4 _ hv kid rfl) hi hgv
                have hvk : verifyCertification cr rawE t.key key id s = .ok .yes := by
                  rw [← hvc, verifyCertification, verifyCertification, hkk]
                  simp only [verifyWith, hmpi]
                have hres : result = ⟨.pub, p0 :: (bef ++ (sigs ++ ⟨.new, false, .sig s⟩ :: rest))⟩ := by
                  refine (Out.ok.inj hs3).symm.trans ?_
                  simp [hsd, createSig]
                have hm : result.meaningful = .ok true := by
                  obtain ⟨_, _, _, _, _, _, -, -, -, -, _, -, h | ⟨_, _, _, -, -, -, -, -, h, -⟩⟩ := hmain
                  · rw [h.1]; exact hsm
                  · exact h
                refine again _ hres hm ?_ (earlierCerts_append hvk rfl rest hea)
                obtain ⟨hbeh, -, -⟩ := earlierCerts_none hea
                have hcs : cert ≠ 0x28 ∧ cert ≠ 0x30 := by
                  rcases isCertification_cases hcert with hc | hc | hc | hc <;> rw [hc] <;> decide
                have hst : s.type = cert := rfl
                rw [revokeCheck, hsm, Out.ok_bind, hp, hps, hbef, hbeh] at hr2
                rw [revokeCheck, hm, Out.ok_bind, hres, hbef]
                simp only [Bool.not_true, Bool.false_eq_true, if_false] at hr2 ⊢
                have hany : ∀ (f : Pkt E → Bool) (x y : Pkt E) (b : List (Pkt E)), f ⟨.new, false, .sig s⟩ = false →
                    (x :: y :: (b ++ (sigs ++ ⟨.new, false, .sig s⟩ :: rest))).any f = (x :: y :: (b ++ (sigs ++ rest))).any f := by
                  intro f x y b hf
                  simp only [List.any_cons, List.any_append, hf, Bool.false_or]
                have hnew : (s.type == 0x28 || s.type == 0x30) = false := by
                  rw [hst]
                  simpa using hcs
                cases pre with
                | nil =>
                  simp only [List.nil_append, List.cons_append, hpid, hid] at hr2 ⊢
                  split at hr2
                  · cases Out.ok.inj hr2
                  · rename_i hno
                    refine congrArg Out.ok (if_neg fun hy => hno ?_)
                    exact (hany _ p0 pu [] hnew).symm.trans hy
                | cons q pre =>
                  simp only [List.cons_append] at hr2 ⊢
                  split
                  · rename_i s' hs'
                    simp only [hs'] at hr2
                    exact hr2
                  · rename_i hns
                    split at hr2
                    · rename_i hs'
                      exact absurd hs' (hns _)
                    · split at hr2
                      · cases Out.ok.inj hr2
                      · rename_i hno
                        refine congrArg Out.ok (if_neg fun hy => hno ?_)
                        exact (hany _ p0 q (pre ++ [pu]) hnew).symm.trans hy

/-- The hypotheses are met: a key certified for the first time, with one packet more than before, and certified again. -/
example : CanSign demoCrypto c36DsaArgs [] c36Dsa [6] ∧ c36DsaArgs.version = 4 ∧
    (match (do signPrimaryKey demoCrypto (fun e : Empty => nomatch e) c36DsaArgs 9 [5] (← signPrimaryKey demoCrypto (fun e : Empty => nomatch e) c36DsaArgs 7 [3]
      c36Signee [98] 0x13) [98] 0x10) with
    | .ok r => decide (r.packets.length = 4)
    | _ => false) = true := ⟨c36Dsa_canSign, rfl, by decide +kernel⟩

end OpenPGP
