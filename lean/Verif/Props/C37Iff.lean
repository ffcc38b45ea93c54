import Verif.Props.C43Cert

/-!
# C37: exactly when certifications and revocation certificates verify

A revocation certificate verifies exactly when it is good (`C37_revoke_iff`). For certifications the order of the packets matters: the first signature
that is not answered with "no" decides (`C37_certification_iff`); good certifications are found if the signer made no other signature in front of them
(`C37_certification_complete`), and a revocation or direct signature by the signer in front of the first user ID makes the call throw
(`C37_certification_throws`).
-/
namespace OpenPGP
open Rfc
variable {E : Type}

/-- What is prescribed is what the library hashes, in both versions. -/
theorem prescribed_input {rawE : E → Bytes} {c : Signed E} {s : Tag2 E} {i : Bytes} (hn : s.type ≠ 2)
    (hid : ∀ k id, c = .user k id → id.tag = 13 ∨ id.tag = 17) (h : Prescribed rawE c s i) : libraryInput rawE c s = .ok i := by
  obtain ⟨hf, o, ho, hh⟩ := h
  rcases ho with ⟨hv, ho⟩ | ⟨h3, ho⟩
  · exact input_of_prescribed hv hid ⟨hf, o, Or.inl ⟨hv, ho⟩, hh⟩
  · rw [C32_v3_prescribed rawE c s h3 hf hn, ho, Out.ok_bind]
    rcases hh with ⟨h4, -⟩ | ⟨-, hh⟩
    · rw [h3] at h4; exact absurd h4 (by decide)
    · rw [hh]

theorem verifyWith_answers (cr : Crypto) (hcr : cr.Ok) {kp : KeyPkt} (hs : ∀ n, kp.mpi[0]? = some n → n.log2 < 2 ^ 32) {s : Tag2 E} {i : Bytes}
    (h : GoodValues cr kp s i) {input : Out Bytes} {j : Bytes} (hj : input = .ok j) :
    ∃ v, (digestOf cr s input >>= fun d => verifyWith d kp s) = .ok v ∧ v ≠ .error := by
  obtain ⟨⟨n, hn⟩, h⟩ := h
  rw [hj, digestOf, Out.ok_bind, hashUse, if_pos (by rw [hn]; rfl), Out.ok_bind, verifyWith]
  exact verifyPka_definite (by rw [hn, hcr.hash_len _ _ _ hn]) (by rw [hn, hcr.hash_len _ _ _ hn]) hs h

theorem raw_user_ok (rawE : E → Bytes) {b : Body E} (h : b.tag = 13 ∨ b.tag = 17) : ∃ r, b.raw rawE = .ok r := by
  cases b <;> first | exact ⟨_, rfl⟩ | (exfalso; revert h; simp [Body.tag])

theorem addtrailer_ok (rawE : E → Bytes) {s : Tag2 E} (hv : s.version = 3 ∨ s.version = 4) (c : Bytes) : ∃ i, addtrailer rawE c s = .ok i := by
  rcases hv with hv | hv
  · exact ⟨_, (addtrailer_iff rawE c s _).mpr (Or.inr ⟨hv, rfl⟩)⟩
  · exact ⟨_, (addtrailer_iff rawE c s _).mpr (Or.inl ⟨hv, rfl⟩)⟩

/-- A revocation certificate verifies exactly when it is one signature packet with the key's ID and the values of a good key, subkey or certification
revocation: over the first key packet, over one of the subkeys, or over the signing key with one of its user IDs or attributes. -/
theorem C37_revoke_iff (cr : Crypto) (hcr : cr.Ok) (rawE : E → Bytes) (k : KeyObj E) (hk : k.Sized) (rev : PgpObj (Pkt E)) :
    verifyRevoke cr rawE k rev = .ok .yes ↔
    k.meaningful = .ok true ∧
    ∃ p s kid kp i, rev.type = 2 ∧ rev.packets = [p] ∧ p.body = .sig s ∧ k.keyid cr = .ok kid ∧ s.getKeyid = .ok kid ∧ SigningKey k kp ∧
      GoodValues cr kp s i ∧
      ((s.type = 0x20 ∧ ∃ q key, k.packets.head? = some q ∧ q.body.keyPart = some key ∧ Prescribed rawE (.key key) s i) ∨
       (s.type = 0x28 ∧ ∃ q ∈ k.packets, ∃ key, (q.body.tag = 7 ∨ q.body.tag = 14) ∧ q.body.keyPart = some key ∧ Prescribed rawE (.key key) s i) ∨
       (s.type = 0x30 ∧ ∃ q ∈ k.packets, (q.body.tag = 13 ∨ q.body.tag = 17) ∧ Prescribed rawE (.user kp q.body) s i)) := by
  constructor
  · intro h
    refine ⟨?_, C37_revoke cr hcr rawE k hk rev h⟩
    rw [verifyRevoke] at h
    obtain ⟨good, hg, h⟩ := Out.bind_eq_ok.mp h
    cases good with
    | false => exact absurd (Out.ok.inj h) (by decide)
    | true => exact hg
  · rintro ⟨hm, p, s, kid, kp, i, ht, hp, hb, hk1, hk2, hsk, hgood, hcase⟩
    have hsz := hsk.sized hk
    have hrev : revocationPacket rev = some s := by
      rw [revocationPacket, if_neg (by simp [ht]), hp]
      obtain ⟨a, b, c⟩ := p
      obtain rfl : c = .sig s := hb
      have : s.type = 0x20 ∨ s.type = 0x28 ∨ s.type = 0x30 := by
        rcases hcase with h | h | h
        · exact Or.inl h.1
        · exact Or.inr (Or.inl h.1)
        · exact Or.inr (Or.inr h.1)
      simp only [if_pos this]
    have hsf : signingFields k = .ok (some kp) := (signingFields_iff hm kp).mpr hsk
    rw [verifyRevoke, hm, Out.ok_bind]
    simp only [Bool.not_true, Bool.false_eq_true, if_false, hrev, hk1, hk2, Out.ok_bind, ne_eq, not_true_eq_false, hsf]
    rcases hcase with ⟨hty, q, key, hq, hkey, hpre⟩ | ⟨hty, q, hq, key, htag, hkey, hpre⟩ | ⟨hty, q, hq, htag, hpre⟩
    · rw [if_pos hty]
      have hin := prescribed_input (by rw [hty]; decide) (by simp) hpre
      rw [libraryInput, if_pos hty, sign20Input, if_neg (by simp [hty])] at hin
      cases hps : k.packets with
      | nil => rw [hps] at hq; simp at hq
      | cons q' qs =>
        rw [hps] at hq
        obtain rfl : q' = q := by simpa using hq
        simp only [hkey]
        exact (verifyWith_iff cr hcr hsz s _).mpr ⟨i, hin, hgood⟩
    · rw [if_neg (by rw [hty]; decide), if_pos hty]
      have hin := prescribed_input (by rw [hty]; decide) (by simp) hpre
      rw [libraryInput, if_neg (by rw [hty]; decide), if_pos hty, sign28Input, if_neg (by simp [hty])] at hin
      have hall : ∀ b : Body E, (b.tag = 7 ∨ b.tag = 14) → ∃ key, b.keyPart = some key ∧ sign28Input rawE b s = addtrailer rawE (overkey key) s := by
        intro b hb
        cases b <;> first
          | exact ⟨_, rfl, by rw [sign28Input, if_neg (by simp [hty])]; try rfl⟩
          | (exfalso; revert hb; simp [Body.tag]; done)
          | (rename_i n d; exfalso; revert hb; simp [Body.tag]; omega)
      have hver := addtrailer_version hin
      refine firstVerdict_of (x := q.body) (List.mem_filter.mpr ⟨List.mem_map.mpr ⟨q, hq, rfl⟩, by simpa using htag⟩) ?_ ?_
      · obtain ⟨key', hk', he⟩ := hall _ htag
        obtain rfl : key' = key := Option.some.inj (hk'.symm.trans hkey)
        exact (verifyWith_iff cr hcr hsz s _).mpr ⟨i, he.trans hin, hgood⟩
      · intro y hy
        obtain ⟨key', -, he⟩ := hall y (by simpa using (List.mem_filter.mp hy).2)
        obtain ⟨j, hj⟩ := addtrailer_ok rawE hver (overkey key')
        exact verifyWith_answers cr hcr hsz hgood (he.trans hj)
    · rw [if_neg (by rw [hty]; decide), if_neg (by rw [hty]; decide), if_pos hty]
      have hin := prescribed_input (by rw [hty]; decide) (by rintro k' id' h'; cases h'; exact htag) hpre
      rw [libraryInput, if_pos hty] at hin
      have hver := (signUserInput_version hin).2
      refine firstVerdict_of (x := q.body) (List.mem_filter.mpr ⟨List.mem_map.mpr ⟨q, hq, rfl⟩, by simpa using htag⟩) ?_ ?_
      · exact (verifyWith_iff cr hcr hsz s _).mpr ⟨i, hin, hgood⟩
      · intro y hy
        have hyt : y.tag = 13 ∨ y.tag = 17 := by simpa using (List.mem_filter.mp hy).2
        obtain ⟨r, hr⟩ := raw_user_ok rawE hyt
        have hc : ∃ c, certification rawE s.version y = .ok c := by
          unfold certification
          rw [hr, Out.ok_bind]
          rcases hver with hv | hv
          · exact ⟨_, by rw [if_pos hv]; rfl⟩
          · rw [if_neg (by rw [hv]; decide), if_pos hv]
            split_ifs
            · exact ⟨_, rfl⟩
            · exact ⟨_, rfl⟩
            · exact ⟨_, rfl⟩
        obtain ⟨c, hc⟩ := hc
        obtain ⟨j, hj⟩ := addtrailer_ok rawE hver (overkey kp ++ c)
        have he : signUserInput rawE 0x30 kp y s = .ok j := by
          rw [signUserInput, if_neg (by simp [hty]), hc, Out.ok_bind, hj]
        exact verifyWith_answers cr hcr hsz hgood he

/-! ## Certifications -/

/-- After the packets `a`, a signature would certify `id` with `key`: `key` is the last primary key packet and `id` the last user ID or attribute
behind it. -/
def CertifiesAfter (a : List (Body E)) (key : KeyPkt) (id : Body E) : Prop :=
  ∃ x kb b c, a = x ++ kb :: b ++ id :: c ∧ (kb.tag = 5 ∨ kb.tag = 6) ∧ kb.keyPart = some key ∧
    (id.tag = 13 ∨ id.tag = 17) ∧ (∀ y ∈ b ++ c, y.tag ≠ 5 ∧ y.tag ≠ 6) ∧ ∀ y ∈ c, y.tag ≠ 13 ∧ y.tag ≠ 17

/-- The variables of the loop after the packets `a`. -/
def ctxStep (st : Option KeyPkt × Option (Body E)) (b : Body E) : Option KeyPkt × Option (Body E) :=
  if b.tag = 5 ∨ b.tag = 6 then (b.keyPart, none) else if b.tag = 13 ∨ b.tag = 17 then (st.1, some b) else st

def ctxOf (a : List (Body E)) : Option KeyPkt × Option (Body E) := a.foldl ctxStep (none, none)

theorem ctxOf_snoc (a : List (Body E)) (b : Body E) : ctxOf (a ++ [b]) = ctxStep (ctxOf a) b := by simp [ctxOf]

theorem ctxOf_key (a : List (Body E)) (k : KeyPkt) : (ctxOf a).1 = some k ↔
    ∃ x kb b, a = x ++ kb :: b ∧ (kb.tag = 5 ∨ kb.tag = 6) ∧ kb.keyPart = some k ∧ ∀ y ∈ b, y.tag ≠ 5 ∧ y.tag ≠ 6 := by
  induction a using List.reverseRecOn with
  | nil => simp [ctxOf]
  | append_singleton a b ih =>
    rw [ctxOf_snoc, ctxStep]
    constructor
    · intro h
      split_ifs at h with h1 h2
      · exact ⟨a, b, [], rfl, h1, h, by simp⟩
      · obtain ⟨x, kb, c, rfl, g1, g2, g3⟩ := ih.mp h
        refine ⟨x, kb, c ++ [b], by simp, g1, g2, fun y hy => ?_⟩
        rcases List.mem_append.mp hy with hy | hy
        · exact g3 y hy
        · rw [List.mem_singleton.mp hy]; exact not_or.mp h1
      · obtain ⟨x, kb, c, rfl, g1, g2, g3⟩ := ih.mp h
        refine ⟨x, kb, c ++ [b], by simp, g1, g2, fun y hy => ?_⟩
        rcases List.mem_append.mp hy with hy | hy
        · exact g3 y hy
        · rw [List.mem_singleton.mp hy]; exact not_or.mp h1
    · rintro ⟨x, kb, c, he, g1, g2, g3⟩
      rcases List.eq_nil_or_concat c with rfl | ⟨c, z, rfl⟩
      · obtain ⟨-, rfl⟩ := List.append_inj' he rfl |>.imp id (fun h => (List.cons.inj h).1)
        rw [if_pos g1]; exact g2
      · have he' : a ++ [b] = (x ++ kb :: c) ++ [z] := by simpa using he
        obtain ⟨rfl, hz⟩ := List.append_inj' he' rfl
        obtain rfl := (List.cons.inj hz).1
        have hz1 := g3 b (by simp)
        rw [if_neg (by rintro (h | h); exacts [hz1.1 h, hz1.2 h])]
        have := ih.mpr ⟨x, kb, c, rfl, g1, g2, fun y hy => g3 y (by simp [hy])⟩
        split_ifs
        · exact this
        · exact this

theorem ctxOf_iff (a : List (Body E)) (k : KeyPkt) (i : Body E) : ctxOf a = (some k, some i) ↔ CertifiesAfter a k i := by
  induction a using List.reverseRecOn with
  | nil =>
    constructor
    · intro h; exact absurd (congrArg Prod.fst h) (by simp [ctxOf])
    · rintro ⟨x, kb, b, c, he, -⟩; simp at he
  | append_singleton a b ih =>
    rw [ctxOf_snoc, ctxStep]
    constructor
    · intro h
      split_ifs at h with h1 h2
      · exact absurd (congrArg Prod.snd h) (by simp)
      · obtain rfl : b = i := Option.some.inj (congrArg Prod.snd h)
        obtain ⟨x, kb, c, rfl, g1, g2, g3⟩ := (ctxOf_key a k).mp (congrArg Prod.fst h)
        exact ⟨x, kb, c, [], by simp, g1, g2, h2, by simpa using g3, by simp⟩
      · obtain ⟨x, kb, c, d, rfl, g1, g2, g3, g4, g5⟩ := ih.mp h
        refine ⟨x, kb, c, d ++ [b], by simp, g1, g2, g3, fun y hy => ?_, fun y hy => ?_⟩
        · rw [← List.append_assoc] at hy
          rcases List.mem_append.mp hy with hy | hy
          · exact g4 y hy
          · rw [List.mem_singleton.mp hy]; exact not_or.mp h1
        · rcases List.mem_append.mp hy with hy | hy
          · exact g5 y hy
          · rw [List.mem_singleton.mp hy]; exact not_or.mp h2
    · rintro ⟨x, kb, c, d, he, g1, g2, g3, g4, g5⟩
      rcases List.eq_nil_or_concat d with rfl | ⟨d, z, rfl⟩
      · obtain ⟨ha, hb⟩ := List.append_inj' he rfl
        obtain rfl := (List.cons.inj hb).1
        have n1 : ¬ (b.tag = 5 ∨ b.tag = 6) := by
          rcases g3 with h | h <;> rw [h] <;> decide
        rw [if_neg n1, if_pos g3]
        have := (ctxOf_key a k).mpr ⟨x, kb, c, by simpa using ha, g1, g2, by simpa using g4⟩
        rw [this]
      · have he' : a ++ [b] = (x ++ kb :: c ++ i :: d) ++ [z] := by simpa using he
        obtain ⟨rfl, hz⟩ := List.append_inj' he' rfl
        obtain rfl := (List.cons.inj hz).1
        have z1 := g4 b (by simp)
        have z2 := g5 b (by simp)
        rw [if_neg (by rintro (h | h); exacts [z1.1 h, z1.2 h]), if_neg (by rintro (h | h); exacts [z2.1 h, z2.2 h])]
        exact ih.mpr ⟨x, kb, c, d, rfl, g1, g2, g3, fun y hy => g4 y (by
          rcases List.mem_append.mp hy with h | h <;> simp [h]), fun y hy => g5 y (by simp [hy])⟩

/-- The answer the loop gets for the signature `s` behind the packets `a`. -/
def answerAt (cr : Crypto) (rawE : E → Bytes) (signer : KeyPkt) (a : List (Body E)) (s : Tag2 E) : Out Verdict :=
  match (ctxOf a).1, (ctxOf a).2 with
  | some k, some i => verifyCertification cr rawE signer k i s
  | _, _ => do
    let a ← signer.keyid cr
    let b ← s.getKeyid
    if a ≠ b then return .no else .throw

theorem certifiedLoop_iff (cr : Crypto) (rawE : E → Bytes) (signer : KeyPkt) (post pre : List (Body E)) :
    certifiedLoop cr rawE signer (ctxOf pre).1 (ctxOf pre).2 post = .ok .yes ↔
      ∃ q s r, post = q ++ .sig s :: r ∧ answerAt cr rawE signer (pre ++ q) s = .ok .yes ∧
        ∀ q1 s1 q2, q = q1 ++ .sig s1 :: q2 → answerAt cr rawE signer (pre ++ q1) s1 = .ok .no := by
  induction post generalizing pre with
  | nil =>
    rw [certifiedLoop]
    constructor
    · intro h; exact absurd (Out.ok.inj h) (by decide)
    · rintro ⟨q, s, r, h, -⟩; simp at h
  | cons b bs ih =>
    have hgo : ∀ hns : ∀ s, b ≠ .sig s, (certifiedLoop cr rawE signer (ctxOf (pre ++ [b])).1 (ctxOf (pre ++ [b])).2 bs = .ok .yes ↔
        ∃ q s r, b :: bs = q ++ .sig s :: r ∧ answerAt cr rawE signer (pre ++ q) s = .ok .yes ∧
          ∀ q1 s1 q2, q = q1 ++ .sig s1 :: q2 → answerAt cr rawE signer (pre ++ q1) s1 = .ok .no) := by
      intro hns
      rw [ih]
      constructor
      · rintro ⟨q, s, r, rfl, h1, h2⟩
        refine ⟨b :: q, s, r, rfl, by simpa using h1, ?_⟩
        intro q1 s1 q2 hq
        cases q1 with
        | nil => exact absurd (List.cons.inj hq).1 (hns s1)
        | cons x q1 =>
          obtain ⟨rfl, hq'⟩ := List.cons.inj hq
          simpa using h2 q1 s1 q2 hq'
      · rintro ⟨q, s, r, he, h1, h2⟩
        cases q with
        | nil => exact absurd (List.cons.inj he).1 (hns s)
        | cons x q =>
          obtain ⟨rfl, he'⟩ := List.cons.inj he
          exact ⟨q, s, r, he', by simpa using h1, fun q1 s1 q2 hq => by
            simpa using h2 (b :: q1) s1 q2 (by rw [hq]; rfl)⟩
    unfold certifiedLoop
    by_cases h5 : b.tag = 5 ∨ b.tag = 6
    · rw [if_pos h5]
      have := hgo (by rintro s rfl; simp [Body.tag] at h5)
      rw [ctxOf_snoc, ctxStep, if_pos h5] at this
      exact this
    · rw [if_neg h5]
      by_cases h13 : b.tag = 13 ∨ b.tag = 17
      · rw [if_pos h13]
        have := hgo (by rintro s rfl; simp [Body.tag] at h13)
        rw [ctxOf_snoc, ctxStep, if_neg h5, if_pos h13] at this
        exact this
      · rw [if_neg h13]
        have hctx : ctxOf (pre ++ [b]) = ctxOf pre := by rw [ctxOf_snoc, ctxStep, if_neg h5, if_neg h13]
        split
        · rename_i s
          show (answerAt cr rawE signer pre s >>= fun rc => match rc with
            | .yes => return .yes
            | .error => return .error
            | .no => certifiedLoop cr rawE signer (ctxOf pre).1 (ctxOf pre).2 bs) = .ok .yes ↔ _
          constructor
          · intro h
            obtain ⟨rc, hrc, h⟩ := Out.bind_eq_ok.mp h
            cases rc with
            | yes => exact ⟨[], s, bs, rfl, by simpa using hrc, fun q1 s1 q2 h => by simp at h⟩
            | error => exact absurd (Out.ok.inj h) (by decide)
            | no =>
              obtain ⟨q, s', r, rfl, h1, h2⟩ := (ih (pre ++ [.sig s])).mp (by rw [hctx]; exact h)
              refine ⟨.sig s :: q, s', r, rfl, by simpa using h1, fun q1 s1 q2 hq => ?_⟩
              cases q1 with
              | nil =>
                have := (List.cons.inj hq).1
                injection this with this
                subst this
                simpa using hrc
              | cons x q1 =>
                obtain ⟨rfl, hq'⟩ := List.cons.inj hq
                simpa using h2 q1 s1 q2 hq'
          · rintro ⟨q, s', r, he, h1, h2⟩
            cases q with
            | nil =>
              have := (List.cons.inj he).1
              injection this with this
              subst this
              rw [List.append_nil] at h1
              rw [h1]; rfl
            | cons x q =>
              obtain ⟨rfl, he'⟩ := List.cons.inj he
              have h0 := h2 [] s q rfl
              rw [List.append_nil] at h0
              rw [h0, Out.ok_bind]
              have := (ih (pre ++ [.sig s])).mpr ⟨q, s', r, he', by simpa using h1, fun q1 s1 q2 hq => by
                simpa using h2 (.sig s :: q1) s1 q2 (by rw [hq]; rfl)⟩
              rw [hctx] at this
              exact this
        · rename_i hns
          have := hgo (fun s hs => hns s hs)
          rw [hctx] at this
          exact this

theorem verifyCertification_iff (cr : Crypto) (hcr : cr.Ok) (rawE : E → Bytes) {kp : KeyPkt}
    (hs : ∀ n, kp.mpi[0]? = some n → n.log2 < 2 ^ 32) {key : KeyPkt} {id : Body E} {s : Tag2 E} (hid : id.tag = 13 ∨ id.tag = 17) :
    verifyCertification cr rawE kp key id s = .ok .yes ↔ GoodCert cr rawE kp key id s := by
  constructor
  · exact verifyCertification_yes cr hcr rawE hs hid
  · rintro ⟨⟨kid, h1, h2⟩, ht, i, hp, hg⟩
    have hin := prescribed_input (by rcases ht with h | h | h | h <;> rw [h] <;> decide) (by rintro k' id' h'; cases h'; exact hid) hp
    rw [libraryInput, if_neg (by rcases ht with h | h | h | h <;> rw [h] <;> decide)] at hin
    rw [verifyCertification, h1, h2, Out.ok_bind, Out.ok_bind, if_neg (by simp)]
    exact (verifyWith_iff cr hcr hs s _).mpr ⟨i, hin, hg⟩

/-- The signature `s` behind the packets `a` is passed over: it is by another key, or it is a certification whose values are no good for what it is over. -/
def PassedOver (cr : Crypto) (rawE : E → Bytes) (kp : KeyPkt) (a : List (Body E)) (s : Tag2 E) : Prop :=
  (∃ kid kid', kp.keyid cr = .ok kid ∧ s.getKeyid = .ok kid' ∧ kid ≠ kid') ∨
  (∃ kid key id i, kp.keyid cr = .ok kid ∧ s.getKeyid = .ok kid ∧ CertifiesAfter a key id ∧ (s.type = 0x10 ∨ s.type = 0x11 ∨ s.type = 0x12 ∨ s.type = 0x13) ∧
    Prescribed rawE (.user key id) s i ∧ (hashLen s.hash).isSome = true ∧ verifyWith (cr.hash s.hash i) kp s = .ok .no)

theorem answerAt_yes (cr : Crypto) (hcr : cr.Ok) (rawE : E → Bytes) {kp : KeyPkt} (hs : ∀ n, kp.mpi[0]? = some n → n.log2 < 2 ^ 32)
    (a : List (Body E)) (s : Tag2 E) :
    answerAt cr rawE kp a s = .ok .yes ↔ ∃ key id, CertifiesAfter a key id ∧ GoodCert cr rawE kp key id s := by
  have bad : ∀ {x y : Out Bytes}, (do let a ← x; let b ← y; if a ≠ b then return Verdict.no else .throw) = .ok Verdict.yes → False := by
    intro x y hrc
    obtain ⟨x, -, hrc⟩ := Out.bind_eq_ok.mp hrc
    obtain ⟨y, -, hrc⟩ := Out.bind_eq_ok.mp hrc
    split at hrc
    · exact absurd (Out.ok.inj hrc) (by decide)
    · exact absurd hrc (by simp)
  rcases hc : ctxOf a with ⟨ok, oi⟩
  unfold answerAt
  rw [hc]
  constructor
  · intro h
    cases ok with
    | none => exact (bad h).elim
    | some k =>
      cases oi with
      | none => exact (bad h).elim
      | some i =>
        have hca := (ctxOf_iff a k i).mp hc
        have hid : i.tag = 13 ∨ i.tag = 17 := by obtain ⟨_, _, _, _, _, _, _, h, _⟩ := hca; exact h
        exact ⟨k, i, hca, (verifyCertification_iff cr hcr rawE hs hid).mp h⟩
  · rintro ⟨key, id, hca, hg⟩
    have := (ctxOf_iff a key id).mpr hca
    rw [hc] at this
    obtain ⟨rfl, rfl⟩ := Prod.mk.inj this
    have hid : id.tag = 13 ∨ id.tag = 17 := by obtain ⟨_, _, _, _, _, _, _, h, _⟩ := hca; exact h
    exact (verifyCertification_iff cr hcr rawE hs hid).mpr hg

theorem answerAt_no (cr : Crypto) (rawE : E → Bytes) (kp : KeyPkt) (a : List (Body E)) (s : Tag2 E) :
    answerAt cr rawE kp a s = .ok .no ↔ PassedOver cr rawE kp a s := by
  rcases hc : ctxOf a with ⟨ok, oi⟩
  unfold answerAt
  rw [hc]
  have hno : ∀ key id, ctxOf a = (some key, some id) → (verifyCertification cr rawE kp key id s = .ok .no ↔ PassedOver cr rawE kp a s) := by
    intro key id hc
    have hca := (ctxOf_iff a key id).mp hc
    have hid : id.tag = 13 ∨ id.tag = 17 := by obtain ⟨_, _, _, _, _, _, _, h, _⟩ := hca; exact h
    constructor
    · intro h
      rw [verifyCertification] at h
      obtain ⟨x, hx, h⟩ := Out.bind_eq_ok.mp h
      obtain ⟨y, hy, h⟩ := Out.bind_eq_ok.mp h
      split at h
      · rename_i hne
        exact Or.inl ⟨x, y, hx, hy, hne⟩
      · rename_i heq
        obtain rfl := not_not.mp heq
        obtain ⟨d, hd, h⟩ := Out.bind_eq_ok.mp h
        obtain ⟨i, hi, hd⟩ := Out.bind_eq_ok.mp hd
        rw [hashUse] at hd
        split at hd
        · rename_i hsome
          obtain rfl := Out.ok.inj hd
          obtain ⟨ht, hp⟩ := signCertInput_prescribed hid hi
          exact Or.inr ⟨x, key, id, i, hx, hy, hca, ht, hp, hsome, h⟩
        · exact absurd hd (by simp)
    · rintro (⟨x, y, hx, hy, hne⟩ | ⟨x, key', id', i, hx, hy, hca', ht, hp, hsome, h⟩)
      · rw [verifyCertification, hx, hy, Out.ok_bind, Out.ok_bind, if_pos hne]; rfl
      · have := (ctxOf_iff a key' id').mpr hca'
        rw [hc] at this
        obtain ⟨e1, e2⟩ := Prod.mk.inj this
        obtain rfl := Option.some.inj e1
        obtain rfl := Option.some.inj e2
        have hin := prescribed_input (by rcases ht with h | h | h | h <;> rw [h] <;> decide) (by rintro k' id' h'; cases h'; exact hid) hp
        rw [libraryInput, if_neg (by rcases ht with h | h | h | h <;> rw [h] <;> decide)] at hin
        rw [verifyCertification, hx, hy, Out.ok_bind, Out.ok_bind, if_neg (by simp), digestOf, hin, Out.ok_bind, hashUse, if_pos hsome, Out.ok_bind]
        exact h
  have hbad : (∀ key id, ctxOf a ≠ (some key, some id)) →
      ((do let x ← kp.keyid cr; let y ← s.getKeyid; if x ≠ y then return Verdict.no else .throw) = .ok Verdict.no ↔ PassedOver cr rawE kp a s) := by
    intro hn
    constructor
    · intro h
      obtain ⟨x, hx, h⟩ := Out.bind_eq_ok.mp h
      obtain ⟨y, hy, h⟩ := Out.bind_eq_ok.mp h
      split at h
      · rename_i hne
        exact Or.inl ⟨x, y, hx, hy, hne⟩
      · exact absurd h (by simp)
    · rintro (⟨x, y, hx, hy, hne⟩ | ⟨x, key', id', i, hx, hy, hca', -⟩)
      · rw [hx, hy, Out.ok_bind, Out.ok_bind, if_pos hne]; rfl
      · exact absurd ((ctxOf_iff a key' id').mpr hca') (hn _ _)
  cases ok with
  | none => exact hbad (fun k i h => by rw [hc] at h; exact absurd (congrArg Prod.fst h) (by simp))
  | some k =>
    cases oi with
    | none => exact hbad (fun k i h => by rw [hc] at h; exact absurd (congrArg Prod.snd h) (by simp))
    | some i => exact hno k i hc

/-- A key is reported as certified exactly when both keys are well-formed, the signer has a key ID and a signing key, one of the signatures is a good
certification by that key, and all signatures in front of it are passed over. -/
theorem C37_certification_iff (cr : Crypto) (hcr : cr.Ok) (rawE : E → Bytes) (signer signee : KeyObj E) (hk : signer.Sized) :
    verifyPrimaryKey cr rawE signer signee = .ok .yes ↔
      signer.meaningful = .ok true ∧ signee.meaningful = .ok true ∧ (∃ own, signer.keyid cr = .ok own ∧ own ≠ []) ∧ ∃ kp, SigningKey signer kp ∧
        ∃ a s r key id, signee.packets.map (·.body) = a ++ .sig s :: r ∧ CertifiesAfter a key id ∧ GoodCert cr rawE kp key id s ∧
          ∀ b s' c, a = b ++ .sig s' :: c → PassedOver cr rawE kp b s' := by
  constructor
  · intro h
    rw [verifyPrimaryKey] at h
    obtain ⟨good, hg, h⟩ := Out.bind_eq_ok.mp h
    cases good with
    | false => exact absurd (Out.ok.inj h) (by decide)
    | true =>
      simp only [Bool.not_true, Bool.false_eq_true, if_false] at h
      obtain ⟨good, hg2, h⟩ := Out.bind_eq_ok.mp h
      cases good with
      | false => exact absurd (Out.ok.inj h) (by decide)
      | true =>
        simp only [Bool.not_true, Bool.false_eq_true, if_false] at h
        obtain ⟨own, hown, h⟩ := Out.bind_eq_ok.mp h
        split at h
        · exact absurd (Out.ok.inj h) (by decide)
        rename_i hne
        obtain ⟨okp, hokp, h⟩ := Out.bind_eq_ok.mp h
        cases okp with
        | none => exact absurd (Out.ok.inj h) (by decide)
        | some kp =>
          have hsk := (signingFields_iff hg kp).mp hokp
          obtain ⟨q, s, r, hq, h1, h2⟩ := (certifiedLoop_iff cr rawE kp _ []).mp h
          obtain ⟨key, id, hca, hgc⟩ := (answerAt_yes cr hcr rawE (hsk.sized hk) _ s).mp h1
          exact ⟨hg, hg2, ⟨own, hown, hne⟩, kp, hsk, q, s, r, key, id, hq, hca, hgc, fun b s' c hb => (answerAt_no cr rawE kp _ s').mp (h2 b s' c hb)⟩
  · rintro ⟨hg, hg2, ⟨own, hown, hne⟩, kp, hsk, a, s, r, key, id, hq, hca, hgc, hpass⟩
    rw [verifyPrimaryKey, hg, Out.ok_bind]
    simp only [Bool.not_true, Bool.false_eq_true, if_false, hg2, Out.ok_bind, hown]
    rw [if_neg hne, (signingFields_iff hg kp).mpr hsk, Out.ok_bind]
    exact (certifiedLoop_iff cr rawE kp _ []).mpr ⟨a, s, r, hq, (answerAt_yes cr hcr rawE (hsk.sized hk) _ s).mpr ⟨key, id, hca, hgc⟩,
      fun b s' c hb => (answerAt_no cr rawE kp _ s').mpr (hpass b s' c hb)⟩

/-- A good certification is found if the signatures in front of it name other keys. -/
theorem C37_certification_complete (cr : Crypto) (hcr : cr.Ok) (rawE : E → Bytes) (signer signee : KeyObj E) (hk : signer.Sized)
    (hm : signer.meaningful = .ok true) (hm' : signee.meaningful = .ok true) {own : Bytes} (hown : signer.keyid cr = .ok own) (hne : own ≠ [])
    {kp : KeyPkt} (hsk : SigningKey signer kp) {a r : List (Body E)} {s : Tag2 E} {key : KeyPkt} {id : Body E} {kid : Bytes}
    (hp : signee.packets.map (·.body) = a ++ .sig s :: r) (hca : CertifiesAfter a key id) (hg : GoodCert cr rawE kp key id s) (hkid : kp.keyid cr = .ok kid)
    (hother : ∀ s', .sig s' ∈ a → ∃ other, s'.getKeyid = .ok other ∧ other ≠ kid) : verifyPrimaryKey cr rawE signer signee = .ok .yes := by
  rw [C37_certification_iff cr hcr rawE signer signee hk]
  refine ⟨hm, hm', ⟨own, hown, hne⟩, kp, hsk, a, s, r, key, id, hp, hca, hg, fun b s' c hb => Or.inl ?_⟩
  obtain ⟨other, h1, h2⟩ := hother s' (by rw [hb]; simp)
  exact ⟨kid, other, hkid, h1, Ne.symm h2⟩

/-- **Defect.** A signature by the signer in front of the first user ID (a revocation of the key, for one) makes the call throw, whatever good certifications
follow. -/
theorem C37_certification_throws (cr : Crypto) (rawE : E → Bytes) (signer signee : KeyObj E) (hm : signer.meaningful = .ok true)
    (hm' : signee.meaningful = .ok true) {own kid : Bytes} (hown : signer.keyid cr = .ok own) (hne : own ≠ []) {kp : KeyPkt} (hsk : SigningKey signer kp)
    {kb : Body E} {s : Tag2 E} {r : List (Body E)} (hp : signee.packets.map (·.body) = kb :: .sig s :: r) (hkb : kb.tag = 5 ∨ kb.tag = 6)
    (hkid : kp.keyid cr = .ok kid) (hs : s.getKeyid = .ok kid) : verifyPrimaryKey cr rawE signer signee = .throw := by
  rw [verifyPrimaryKey, hm, Out.ok_bind]
  simp only [Bool.not_true, Bool.false_eq_true, if_false, hm', Out.ok_bind, hown]
  rw [if_neg hne, (signingFields_iff hm kp).mpr hsk, Out.ok_bind]
  simp only [hp]
  rw [certifiedLoop, if_pos hkb, certifiedLoop, if_neg (by simp [Body.tag]), if_neg (by simp [Body.tag])]
  · cases kb.keyPart <;> simp [hkid, hs]
  · intro k i _ h; simp at h
  · rintro s rfl; simp [Body.tag] at hkb

/-- A key with a revocation by itself in front of the user ID: the call throws although the certification behind it is good. -/
def c37Revoked : KeyObj Empty := ⟨.pub, c37Key.packets.head?.toList ++
  ⟨.new, false, .sig (c37Complete (createSig 4 0x20 17 8 c37Kid 7) (sign20Input (fun e => nomatch e) (.publicKey c37Pub)))⟩ :: c37Key.packets.tail⟩

example : c37Revoked.meaningful = .ok true ∧ verifyPrimaryKey demoCrypto (fun e => nomatch e) c37Key c37Revoked = .throw ∧
    verifyPrimaryKey demoCrypto (fun e => nomatch e) c37Key c37Key = .ok .yes := by decide +kernel

end OpenPGP
