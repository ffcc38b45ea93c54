import Verif.Props.C53Nonce
import Verif.Props.C36Limits

/-!
# C53 for documents

What a nonce that comes twice means for the detached signatures of files.
-/
namespace OpenPGP
open Rfc
variable {E : Type}

/-- What `Sign::detached_signature` makes with a DSA key and one draw. -/
theorem signDetached_dsa {cr : Crypto} {rawE : E → Bytes} {a : SignArgs E} {before : List (Pkt E)} {t : Tag5} {pri : List Nat} (h : CanSign cr a before t pri)
    (hpka : t.key.pka = 17) {now : Nat} {draws : List Nat} {data : Bytes} {d : PgpObj (Pkt E)} {s : Tag2 E} (hd : signDetached cr rawE a now draws data = .ok d)
    (hs : IsDetached d s) : ∃ i, Hashed rawE data s i ∧ dsaSignInt draws (num (cr.hash s.hash i)) pri t.key.mpi = .ok s.mpi := by
  have hno : ¬ IsDetached (noDetached : PgpObj (Pkt E)) s := by
    rintro ⟨-, p, hp, -⟩
    exact absurd hp (by simp [noDetached, PgpObj.fresh])
  rw [signDetached] at hd
  obtain ⟨v, -, hd⟩ := Out.bind_eq_ok.mp hd
  split at hd
  · rw [← Out.ok.inj hd] at hs; exact absurd hs hno
  rw [h.signerOf, Out.ok_bind] at hd
  dsimp only at hd
  obtain ⟨r, -, hd⟩ := Out.bind_eq_ok.mp hd
  cases r with
  | yes => rw [← Out.ok.inj hd] at hs; exact absurd hs hno
  | error => rw [← Out.ok.inj hd] at hs; exact absurd hs hno
  | no =>
    dsimp only at hd
    obtain ⟨kid, -, hd⟩ := Out.bind_eq_ok.mp hd
    obtain ⟨os, hos, hd⟩ := Out.bind_eq_ok.mp hd
    cases os with
    | none => rw [← Out.ok.inj hd] at hs; exact absurd hs hno
    | some s' =>
      dsimp only at hd
      obtain rfl := Out.ok.inj hd
      obtain rfl : s' = s := by
        obtain ⟨-, p, hp, hb⟩ := hs
        cases hp
        exact Body.sig.inj hb
      rw [makeSig] at hos
      obtain ⟨g, hg, hos⟩ := Out.bind_eq_ok.mp hos
      rw [digestOf] at hg
      obtain ⟨i, hi, hg⟩ := Out.bind_eq_ok.mp hg
      rw [hashUse] at hg
      split at hg
      · obtain rfl := Out.ok.inj hg
        rw [finishSig] at hos
        obtain ⟨l, hl, hos⟩ := Out.bind_eq_ok.mp hos
        rw [h.opens, Out.ok_bind] at hos
        obtain ⟨vals, hv, hos⟩ := Out.bind_eq_ok.mp hos
        split at hos
        · exact absurd (Out.ok.inj hos) (by simp)
        · obtain rfl := Option.some.inj (Out.ok.inj hos)
          refine ⟨i, (addtrailer_iff _ _ _ _).mp hi, ?_⟩
          rw [signPka, hpka, if_neg (by decide), if_pos rfl, dsaSign, rawtompi_eq] at hv
          split at hv
          · exact absurd hv (by simp)
          · rwa [Out.ok_bind] at hv
      · exact absurd hg (by simp)

/-- Two files signed with one DSA key and one nonce: from the two signatures and what was signed the secret of the key follows, unless the two hashes are the same modulo `q`. -/
theorem C25_documents_fails (cr : Crypto) (rawE : E → Bytes) (a a' : SignArgs E) (before : List (Pkt E)) (t : Tag5) (pri : List Nat)
    (h : CanSign cr a before t pri) (h' : CanSign cr a' before t pri) (hpka : t.key.pka = 17) (now now' k : Nat) (data data' : Bytes)
    (d d' : PgpObj (Pkt E)) (s s' : Tag2 E) (hd : signDetached cr rawE a now [k] data = .ok d) (hd' : signDetached cr rawE a' now' [k] data' = .ok d')
    (hs : IsDetached d s) (hs' : IsDetached d' s') :
    ∃ i i' p q g y x r v v', Hashed rawE data s i ∧ Hashed rawE data' s' i' ∧ t.key.mpi = [p, q, g, y] ∧ pri = [x] ∧ s.mpi = [r, v] ∧ s'.mpi = [r, v'] ∧
      (num (cr.hash s.hash i) % q ≠ num (cr.hash s'.hash i') % q →
        (x : ℤ) % q = (((v' : ℤ) * num (cr.hash s.hash i) - v * num (cr.hash s'.hash i')) * (r * (v - v')) ^ (q - 2)) % q) := by
  have hk : DsaKey t.key.mpi pri := by
    rcases h.pair with ⟨h1, -⟩ | ⟨-, h1⟩
    · rw [hpka] at h1; exact absurd h1 (by decide)
    · exact h1
  obtain ⟨i, hi, h1⟩ := signDetached_dsa h hpka hd hs
  obtain ⟨i', hi', h2⟩ := signDetached_dsa h' hpka hd' hs'
  obtain ⟨p, q, g, y, x, r, v, v', e1, e2, e3, e4, e5⟩ := C25_same_nonce_fails hk h1 h2
  exact ⟨i, i', p, q, g, y, x, r, v, v', hi, hi', e1, e2, e3, e4, e5⟩

/-- Two people who do not know of each other, or one person twice: `sign-detached-signature` started in the same second (modulo 2^32) in two processes that ask the generator for the same things draws one nonce,
and who has the two signatures and the two files has the secret of the key. -/
theorem C53_documents_fails (g : Gmp) (rq rq' : Request) (rs rs' : List Request) (hsh : (rq :: rs).map Request.shape = (rq' :: rs').map Request.shape)
    (hn : rq.now % 2 ^ 32 = rq'.now % 2 ^ 32) {outs outs' : List Random} {b b' : Bbs} (ho : runRequests g Bbs.start (rq :: rs) = .ok (outs, b))
    (ho' : runRequests g Bbs.start (rq' :: rs') = .ok (outs', b')) (nonce : List Random → Nat) (cr : Crypto) (rawE : E → Bytes) (a a' : SignArgs E)
    (before : List (Pkt E)) (t : Tag5) (pri : List Nat) (h : CanSign cr a before t pri) (h' : CanSign cr a' before t pri) (hpka : t.key.pka = 17) (now now' : Nat)
    (data data' : Bytes) (d d' : PgpObj (Pkt E)) (s s' : Tag2 E) (hd : signDetached cr rawE a now [nonce outs] data = .ok d)
    (hd' : signDetached cr rawE a' now' [nonce outs'] data' = .ok d') (hs : IsDetached d s) (hs' : IsDetached d' s') :
    ∃ i i' p q g y x r v v', Hashed rawE data s i ∧ Hashed rawE data' s' i' ∧ t.key.mpi = [p, q, g, y] ∧ pri = [x] ∧ s.mpi = [r, v] ∧ s'.mpi = [r, v'] ∧
      (num (cr.hash s.hash i) % q ≠ num (cr.hash s'.hash i') % q →
        (x : ℤ) % q = (((v' : ℤ) * num (cr.hash s.hash i) - v * num (cr.hash s'.hash i')) * (r * (v - v')) ^ (q - 2)) % q) := by
  have he := C53_same_second_fails g rq rq' rs rs' hsh hn
  rw [ho, ho'] at he
  obtain ⟨rfl, -⟩ := Prod.mk.inj (Out.ok.inj he)
  exact C25_documents_fails cr rawE a a' before t pri h h' hpka now now' _ data data' d d' s s' hd hd' hs hs'

/-- The key of C36Limits, the nonce 3 and the files "a" and "aa". -/
example : CanSign demoCrypto c36DsaArgs [] c36Dsa [6] ∧ c36Dsa.key.pka = 17 ∧
    (match signDetached demoCrypto (fun e : Empty => nomatch e) c36DsaArgs 7 [3] [97], signDetached demoCrypto (fun e : Empty => nomatch e) c36DsaArgs 7 [3] [97, 97], c36Dsa.key.mpi with
    | .ok d, .ok d', [_, q, _, _] => match d.packets, d'.packets with
      | [⟨_, _, .sig s⟩], [⟨_, _, .sig s'⟩] => match s.mpi, s'.mpi with
        | [r, v], [r', v'] => decide (r = r' ∧ v % q ≠ v' % q)
        | _, _ => false
      | _, _ => false
    | _, _, _ => false) = true := ⟨c36Dsa_canSign, rfl, by decide +kernel⟩

end OpenPGP
