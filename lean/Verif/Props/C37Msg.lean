import Verif.Props.C37Iff
import Verif.Props.C29

/-!
# C37: signed messages, as an equivalence
-/
namespace OpenPGP
open Rfc
variable {E : Type}

theorem matchLoop_decided {ae : Out (Option (List Token))} (hae : harmless ae) {token : Token} {s : List Token}
    (h : Steps ae s [.openMessage]) : ∀ {fuel : Nat}, weight s < fuel → ∃ b, Token.matchLoop ae token fuel s = .ok b := by
  induction h using Relation.ReflTransGen.head_induction_on with
  | refl =>
    intro fuel hf
    cases fuel with
    | zero => omega
    | succ fuel =>
      rw [Token.matchLoop]
      split
      · exact ⟨_, rfl⟩
      · exact ⟨false, rfl⟩
  | head h1 _ ih =>
    intro fuel hf
    cases fuel with
    | zero => omega
    | succ fuel =>
      rw [Token.matchLoop]
      split
      · exact ⟨_, rfl⟩
      · rw [h1]
        have := reduceOnce_weight hae h1
        exact ih (by omega)

/-- Of a message the five questions `match` can be asked are answered, and answered as the grammar says. -/
theorem C29_message_kinds {X : NT} {tok : Token} (ha : askToken X = some tok) {tags : List Nat} (h : Derives .message tags) :
    ∃ b, matchTags tags tok = .ok b ∧ (b = true ↔ Derives X tags) := by
  have hd : ∃ b, matchTags tags tok = .ok b := by
    obtain ⟨s, hs, hst⟩ := reduces_of_derives .ub h
    have hask : tok.askable = true := by
      cases X <;> simp only [askToken, reduceCtorEq, Option.some.injEq] at ha <;> subst ha <;> rfl
    rw [matchTags, matchTagsWith, if_neg (derives_ne_nil h), hask, hs]
    have := hst [] [] (by simp)
    simp only [List.nil_append, List.append_nil] at this
    have hw := weight_le s
    exact matchLoop_decided (Or.inl rfl) this (by omega)
  obtain ⟨b, hb⟩ := hd
  refine ⟨b, hb, ?_⟩
  constructor
  · rintro rfl; exact C29_accepts_only ha hb
  · intro hx
    rw [C29_accepts ha hx] at hb
    exact (Out.ok.inj hb).symm

/-- A message asked for a kind it is not. -/
theorem matchTags_no {X : NT} {tok : Token} (ha : askToken X = some tok) {tags : List Nat} (h : Derives .message tags) (hn : ¬ Derives X tags) :
    matchTags tags tok = .ok false := by
  obtain ⟨b, hb, hi⟩ := C29_message_kinds ha h
  cases b with
  | false => exact hb
  | true => exact absurd (hi.mp rfl) hn

theorem derives_encrypted_head {w : List Nat} {X : NT} (h : Derives X w) (hX : X = .encrypted ∨ X = .eskSeq ∨ X = .esk ∨ X = .encData) :
    ∃ t r, w = t :: r ∧ (t = 1 ∨ t = 3 ∨ t = 9 ∨ t = 18) := by
  induction h with
  | eskPublic => exact ⟨1, [], rfl, by simp⟩
  | eskSymmetric => exact ⟨3, [], rfl, by simp⟩
  | dataPlain => exact ⟨9, [], rfl, by simp⟩
  | dataProtected => exact ⟨18, [], rfl, by simp⟩
  | eskFirst _ ih => exact ih (by simp)
  | encData _ ih => exact ih (by simp)
  | eskNext _ _ ih _ => obtain ⟨t, r, rfl, h⟩ := ih (by simp); exact ⟨t, _, rfl, h⟩
  | encKeys _ _ ih _ => obtain ⟨t, r, rfl, h⟩ := ih (by simp); exact ⟨t, _, rfl, h⟩
  | _ => simp at hX

theorem derives_signed_head {w : List Nat} (h : Derives .signed w) : ∃ t r, w = t :: r ∧ (t = 2 ∨ t = 4) := by
  cases h with
  | signedPrefix h => exact ⟨2, _, rfl, Or.inl rfl⟩
  | signedOnePass h => cases h; exact ⟨4, _, rfl, Or.inr rfl⟩

theorem signed_not_encrypted {w : List Nat} (h : Derives .signed w) : ¬ Derives .encrypted w := by
  intro he
  obtain ⟨t, r, rfl, h1⟩ := derives_signed_head h
  obtain ⟨t', r', h2, h3⟩ := derives_encrypted_head he (Or.inl rfl)
  obtain ⟨rfl, rfl⟩ := List.cons.inj h2
  omega

theorem signedOctets_iff (rawE : E → Bytes) (ps : List (Pkt E)) (data : Bytes) : signedOctets rawE ps = .ok data ↔ SignedContent rawE ps data := by
  refine ⟨signedOctets_spec rawE, ?_⟩
  rintro ⟨parts, hf, rfl⟩
  induction hf with
  | nil => rfl
  | @cons p c ps parts h _ ih =>
    rw [signedOctets, ih]
    rcases h with ⟨t, hb, rfl⟩ | ⟨hn, hb⟩
    · rw [hb]; rfl
    · cases hpb : p.body with
      | literal t => exact absurd hpb (hn t)
      | _ => rw [hpb] at hb; dsimp only; rw [hb]; rfl

/-- The pair of the one-pass packet at `j` and the signature in the mirrored place from the end: the one-pass packet names the key `kp`, and the
signature is a good one of that key over everything between the last one-pass packet (there are `first`) and itself. -/
def GoodPair (cr : Crypto) (rawE : E → Bytes) (kp : KeyPkt) (packets : List (Pkt E)) (first j : Nat) : Prop :=
  ∃ o s data inp, (∃ p, packets[j]? = some p ∧ p.body = .onePass o) ∧ kp.keyid cr = .ok o.keyid ∧
    (∃ p, packets[packets.length - (j + 1)]? = some p ∧ p.body = .sig s) ∧
    SignedContent rawE ((packets.take (packets.length - (j + 1))).drop first) data ∧ Hashed rawE data s inp ∧ GoodValues cr kp s inp

/-- The pair at `j` is passed over: the one-pass packet names another key, or the values of the signature are wrong. -/
def PassedPair (cr : Crypto) (rawE : E → Bytes) (kp : KeyPkt) (packets : List (Pkt E)) (first j : Nat) : Prop :=
  ∃ o kid, (∃ p, packets[j]? = some p ∧ p.body = .onePass o) ∧ kp.keyid cr = .ok kid ∧
    (o.keyid ≠ kid ∨ o.keyid = kid ∧ ∃ s data inp, (∃ p, packets[packets.length - (j + 1)]? = some p ∧ p.body = .sig s) ∧
      SignedContent rawE ((packets.take (packets.length - (j + 1))).drop first) data ∧ Hashed rawE data s inp ∧
      (hashLen s.hash).isSome = true ∧ verifyWith (cr.hash s.hash inp) kp s = .ok .no)

theorem pairLoop_iff (cr : Crypto) (hcr : cr.Ok) (rawE : E → Bytes) {kp : KeyPkt} (hs : ∀ n, kp.mpi[0]? = some n → n.log2 < 2 ^ 32)
    (packets : List (Pkt E)) (first n : Nat) : pairLoop cr rawE kp packets first n = .ok .yes ↔
    ∃ j, j < n ∧ GoodPair cr rawE kp packets first j ∧ ∀ j', j < j' → j' < n → PassedPair cr rawE kp packets first j' := by
  induction n with
  | zero =>
    rw [pairLoop]
    exact ⟨fun h => absurd (Out.ok.inj h) (by decide), fun ⟨j, hj, _⟩ => absurd hj (by omega)⟩
  | succ n ih =>
    have key : pairLoop cr rawE kp packets first (n + 1) = .ok .yes ↔
        GoodPair cr rawE kp packets first n ∨ (PassedPair cr rawE kp packets first n ∧ pairLoop cr rawE kp packets first n = .ok .yes) := by
      constructor
      · intro h
        unfold pairLoop at h
        obtain ⟨p, hp, h⟩ := Out.bind_eq_ok.mp h
        have hp := vecAt_eq_ok.mp hp
        cases hb : p.body with
        | onePass o =>
          rw [hb] at h
          dsimp only at h
          obtain ⟨kid, hkid, h⟩ := Out.bind_eq_ok.mp h
          split at h
          · rename_i heq
            obtain ⟨data, hdata, h⟩ := Out.bind_eq_ok.mp h
            obtain ⟨q, hq, h⟩ := Out.bind_eq_ok.mp h
            have hq := vecAt_eq_ok.mp hq
            cases hqb : q.body with
            | sig s =>
              rw [hqb] at h
              dsimp only at h
              obtain ⟨d, hd, h⟩ := Out.bind_eq_ok.mp h
              obtain ⟨v, hv, h⟩ := Out.bind_eq_ok.mp h
              cases v with
              | error => exact absurd (Out.ok.inj h) (by decide)
              | no =>
                refine Or.inr ⟨?_, h⟩
                obtain ⟨i, hi, hd⟩ := Out.bind_eq_ok.mp hd
                rw [hashUse] at hd
                split at hd
                · rename_i hsome
                  obtain rfl := Out.ok.inj hd
                  exact ⟨o, kid, ⟨p, hp, hb⟩, hkid, Or.inr ⟨heq, s, data, i, ⟨q, hq, hqb⟩, signedOctets_spec rawE hdata,
                    (addtrailer_iff _ _ _ _).mp hi, hsome, hv⟩⟩
                · exact absurd hd (by simp)
              | yes =>
                obtain ⟨i, hi, hg⟩ := (verifyWith_iff cr hcr hs s (sign00Input rawE data s)).mp (by rw [hd, Out.ok_bind]; exact hv)
                exact Or.inl ⟨o, s, data, i, ⟨p, hp, hb⟩, heq ▸ hkid, ⟨q, hq, hqb⟩, signedOctets_spec rawE hdata,
                  (addtrailer_iff _ _ _ _).mp hi, hg⟩
            | _ => rw [hqb] at h; exact absurd h (by simp)
          · rename_i hne
            exact Or.inr ⟨⟨o, kid, ⟨p, hp, hb⟩, hkid, Or.inl hne⟩, h⟩
        | _ => rw [hb] at h; exact absurd h (by simp)
      · rintro (⟨o, s, data, inp, ⟨p, hp, hb⟩, hkid, ⟨q, hq, hqb⟩, hc, hh, hg⟩ | ⟨⟨o, kid, ⟨p, hp, hb⟩, hkid, h⟩, hl⟩)
        · have hv := (verifyWith_iff cr hcr hs s (sign00Input rawE data s)).mpr ⟨inp, (addtrailer_iff _ _ _ _).mpr hh, hg⟩
          obtain ⟨d, hd, hv⟩ := Out.bind_eq_ok.mp hv
          unfold pairLoop
          rw [vecAt_eq_ok.mpr hp, Out.ok_bind, hb]
          dsimp only
          rw [hkid, Out.ok_bind, if_pos rfl, (signedOctets_iff rawE _ _).mpr hc, Out.ok_bind, vecAt_eq_ok.mpr hq, Out.ok_bind, hqb]
          dsimp only
          rw [hd, Out.ok_bind, hv]
          rfl
        · unfold pairLoop
          rw [vecAt_eq_ok.mpr hp, Out.ok_bind, hb]
          dsimp only
          rw [hkid, Out.ok_bind]
          rcases h with hne | ⟨heq, s, data, inp, ⟨q, hq, hqb⟩, hc, hh, hsome, hv⟩
          · rw [if_neg hne]; exact hl
          · rw [if_pos heq, (signedOctets_iff rawE _ _).mpr hc, Out.ok_bind, vecAt_eq_ok.mpr hq, Out.ok_bind, hqb]
            dsimp only
            rw [digestOf, show sign00Input rawE data s = .ok inp from (addtrailer_iff _ _ _ _).mpr hh, Out.ok_bind, hashUse, if_pos hsome, Out.ok_bind, hv]
            exact hl
    rw [key, ih]
    constructor
    · rintro (hg | ⟨hp, j, hj, hg, hl⟩)
      · exact ⟨n, by omega, hg, fun j' h1 h2 => absurd h1 (by omega)⟩
      · refine ⟨j, by omega, hg, fun j' h1 h2 => ?_⟩
        rcases Nat.lt_or_ge j' n with h | h
        · exact hl j' h1 h
        · obtain rfl : j' = n := by omega
          exact hp
    · rintro ⟨j, hj, hg, hl⟩
      rcases Nat.lt_or_ge j n with h | h
      · exact Or.inr ⟨hl n h (by omega), j, h, hg, fun j' h1 h2 => hl j' h1 (by omega)⟩
      · obtain rfl : j = n := by omega
        exact Or.inl hg

/-- One-pass signature packets, then at least two more packets of which the first is none and the last a signature; the innermost one-pass packet that
is not passed over belongs to a good signature. -/
def SignedAs (cr : Crypto) (rawE : E → Bytes) (kp : KeyPkt) (packets : List (Pkt E)) : Prop :=
  ∃ ops rest, packets = ops ++ rest ∧ ops ≠ [] ∧ (∀ p ∈ ops, p.body.tag = 4) ∧ (∃ p, rest.head? = some p ∧ p.body.tag ≠ 4) ∧
    (∃ p, rest.getLast? = some p ∧ p.body.tag = 2) ∧ 2 < packets.length ∧ ops.length ≤ rest.length + 1 ∧
    ∃ j, j < ops.length ∧ GoodPair cr rawE kp packets ops.length j ∧ ∀ j', j < j' → j' < ops.length → PassedPair cr rawE kp packets ops.length j'

theorem takeWhile_split {α : Type} {f : α → Bool} {ops rest : List α} (h1 : ∀ p ∈ ops, f p = true) (h2 : ∃ p, rest.head? = some p ∧ f p = false) :
    (ops ++ rest).takeWhile f = ops := by
  obtain ⟨p, hp, hf⟩ := h2
  cases rest with
  | nil => simp at hp
  | cons a r =>
    obtain rfl := Option.some.inj hp
    rw [List.takeWhile_append_of_pos h1, List.takeWhile_cons, hf]
    simp

theorem verifySigned_iff (cr : Crypto) (hcr : cr.Ok) (rawE : E → Bytes) (k : KeyObj E) (hk : k.Sized) (hm : k.meaningful = .ok true)
    (packets : List (Pkt E)) : verifySigned cr rawE k packets = .ok .yes ↔ ∃ kp, SigningKey k kp ∧ SignedAs cr rawE kp packets := by
  rw [verifySigned]
  constructor
  · intro h
    split at h
    · rename_i hc
      obtain ⟨hlen, hhead, hlast⟩ := hc
      obtain ⟨okp, hokp, h⟩ := Out.bind_eq_ok.mp h
      cases okp with
      | none => exact absurd (Out.ok.inj h) (by decide)
      | some kp =>
        have hsk := (signingFields_iff hm kp).mp hokp
        dsimp only at h
        split at h
        · exact absurd (Out.ok.inj h) (by decide)
        rename_i hn
        split at h
        · exact absurd (Out.ok.inj h) (by decide)
        rename_i hn2
        have hp := (pairLoop_iff cr hcr rawE (hsk.sized hk) packets _ _).mp h
        have hsplit := List.takeWhile_append_dropWhile (p := fun p : Pkt E => p.body.tag == 4) (l := packets)
        set ops := packets.takeWhile fun p => p.body.tag == 4 with hops
        set rest := packets.dropWhile fun p => p.body.tag == 4 with hrest
        have hl : packets.length = ops.length + rest.length := by rw [← hsplit, List.length_append]
        have hne : rest ≠ [] := by
          intro he
          rw [he] at hl
          exact hn (by simpa using hl.symm)
        refine ⟨kp, hsk, ops, rest, hsplit.symm, ?_, ?_, ?_, ?_, hlen, by omega, hp⟩
        · intro he
          rw [he] at hp
          obtain ⟨j, hj, -⟩ := hp
          simp at hj
        · intro p hp
          simpa using List.mem_takeWhile_imp hp
        · have := List.head?_dropWhile_not (fun p : Pkt E => p.body.tag == 4) packets
          rw [← hrest] at this
          cases hr : rest with
          | nil => exact absurd hr hne
          | cons a r =>
            rw [hr] at this
            exact ⟨a, rfl, by simpa using this⟩
        · rw [← hsplit, List.getLast?_append_of_ne_nil _ hne, Option.map_eq_some_iff] at hlast
          exact hlast
    · exact absurd (Out.ok.inj h) (by decide)
  · rintro ⟨kp, hsk, ops, rest, rfl, hne, hops, ⟨p, hp, hpt⟩, ⟨q, hq, hqt⟩, hlen, hle, hj⟩
    have htw : ((ops ++ rest).takeWhile fun p => p.body.tag == 4) = ops := takeWhile_split (by simpa using hops) ⟨p, hp, by simpa using hpt⟩
    have hr : rest ≠ [] := by rintro rfl; simp at hp
    have hrl : 0 < rest.length := List.length_pos_iff.mpr hr
    have hh : (ops ++ rest).head?.map (·.body.tag) = some 4 := by
      cases ops with
      | nil => exact absurd rfl hne
      | cons a r => simpa using hops a (by simp)
    have hl : (ops ++ rest).getLast?.map (·.body.tag) = some 2 := by
      rw [List.getLast?_append_of_ne_nil _ hr, hq]
      exact congrArg some hqt
    rw [if_pos ⟨hlen, hh, hl⟩, (signingFields_iff hm kp).mpr hsk, Out.ok_bind]
    dsimp only
    rw [htw, if_neg (by rw [List.length_append]; omega), if_neg (by rw [List.length_append]; omega)]
    exact (pairLoop_iff cr hcr rawE (hsk.sized hk) _ _ _).mpr hj

/-- What a message holds behind its compressed packets, nested less than `depth` deep. -/
inductive OpenedIn (z : Zip) (readE : Bytes → Out E) : Nat → Msg E → Msg E → Prop
  | same (depth m) : OpenedIn z readE (depth + 1) m m
  | inner {m m' m'' : Msg E} {p alg d inner} (depth : Nat) : m.packets = [p] → p.body = .compressed alg d → decompress z alg d = .ok inner →
      Msg.ofString z readE depth inner = .ok m' → OpenedIn z readE depth m' m'' → OpenedIn z readE (depth + 1) m m''

/-- The tags of the packets of a message. -/
def Msg.tags (m : Msg E) : List Nat := m.packets.map (·.body.tag)

/-- A message verifies exactly if, behind its compression, it is a single literal packet (which is not signed at all), or it is a signed message as in
RFC 4880 11.3 whose innermost one-pass packet that is not passed over belongs to a good signature of the signing key. -/
theorem C37_binary_iff (cr : Crypto) (hcr : cr.Ok) (z : Zip) (rawE : E → Bytes) (readE : Bytes → Out E) (depth : Nat) (k : KeyObj E) (hk : k.Sized)
    (m : Msg E) : verifyBinary cr z rawE readE depth k m = .ok .yes ↔
    k.meaningful = .ok true ∧ ∃ m', OpenedIn z readE depth m m' ∧
      ((∃ p t, m'.packets = [p] ∧ p.body = .literal t) ∨ (Derives .signed m'.tags ∧ ∃ kp, SigningKey k kp ∧ SignedAs cr rawE kp m'.packets)) := by
  induction depth generalizing m with
  | zero =>
    constructor
    · intro h; exact absurd h (by simp [verifyBinary])
    · rintro ⟨-, m', ho, -⟩; cases ho
  | succ depth ih =>
    constructor
    · intro h
      unfold verifyBinary at h
      obtain ⟨good, hg, h⟩ := Out.bind_eq_ok.mp h
      cases good with
      | false => exact absurd (Out.ok.inj h) (by decide)
      | true =>
        simp only [Bool.not_true, Bool.false_eq_true, if_false] at h
        refine ⟨hg, ?_⟩
        obtain ⟨good, hmg, h⟩ := Out.bind_eq_ok.mp h
        cases good with
        | false => exact absurd (Out.ok.inj h) (by decide)
        | true =>
          simp only [Bool.not_true, Bool.false_eq_true, if_false] at h
          obtain ⟨enc, henc, h⟩ := Out.bind_eq_ok.mp h
          split at h
          · exact absurd (Out.ok.inj h) (by decide)
          obtain ⟨sgn, hsgn, h⟩ := Out.bind_eq_ok.mp h
          split at h
          · rename_i hs
            exact ⟨m, .same _ m, Or.inr ⟨C29_accepts_only (X := .signed) rfl (hs ▸ hsgn), (verifySigned_iff cr hcr rawE k hk hg m.packets).mp h⟩⟩
          obtain ⟨com, hcom, h⟩ := Out.bind_eq_ok.mp h
          split at h
          · rename_i hc
            have hd := C29_accepts_only (X := .compressed) rfl (hc ▸ hcom)
            split at h
            · rename_i f pa alg d ps hps
              obtain ⟨inner, hin, h⟩ := Out.bind_eq_ok.mp h
              obtain ⟨m', hm', h⟩ := Out.bind_eq_ok.mp h
              obtain ⟨-, m'', ho, hr⟩ := (ih m').mp h
              have hnil : ps = [] := by
                rw [hps] at hd
                generalize ht : (⟨f, pa, .compressed alg d⟩ :: ps : List (Pkt E)).map (·.body.tag) = tags at hd
                cases hd
                exact (by simpa using ht : _ ∧ ps = []).2
              subst hnil
              exact ⟨m'', .inner depth hps rfl hin hm' ho, hr⟩
            · exact absurd h (by simp)
          · obtain ⟨lit, hlit, h⟩ := Out.bind_eq_ok.mp h
            split at h
            · rename_i hl
              have hd := C29_accepts_only (X := .literal) rfl (hl ▸ hlit)
              refine ⟨m, .same _ m, Or.inl ?_⟩
              generalize ht : m.packets.map (·.body.tag) = tags at hd
              cases hd
              rcases hps : m.packets with - | ⟨p, - | ⟨q, l⟩⟩
              · rw [hps] at ht; exact absurd ht (by simp)
              · rw [hps] at ht
                obtain ⟨t, htb⟩ := literal_of_tag (by simpa using ht)
                exact ⟨p, t, rfl, htb⟩
              · rw [hps] at ht; exact absurd ht (by simp)
            · exact absurd (Out.ok.inj h) (by decide)
    · rintro ⟨hg, m', ho, hr⟩
      unfold verifyBinary
      rw [hg, Out.ok_bind]
      simp only [Bool.not_true, Bool.false_eq_true, if_false, Msg.meaningful]
      rw [Msg.tags] at hr
      cases ho with
      | same =>
        rcases hr with ⟨p, t, hp, hb⟩ | ⟨hd, hkp⟩
        · have ht : m.packets.map (·.body.tag) = [11] := by rw [hp]; simp [hb, Body.tag]
          rw [ht, show messageMeaningful [11] = .ok true by decide, show matchTags [11] .encryptedMessage = .ok false by decide,
            show matchTags [11] .signedMessage = .ok false by decide, show matchTags [11] .compressedMessage = .ok false by decide,
            show matchTags [11] .literalMessage = .ok true by decide]
          rfl
        · rw [(C29_meaningful_iff _).mpr (.msgSigned hd), Out.ok_bind]
          simp only [Bool.not_true, Bool.false_eq_true, if_false]
          rw [matchTags_no (X := .encrypted) rfl (.msgSigned hd) (signed_not_encrypted hd), Out.ok_bind, if_neg (by decide),
            C29_accepts (X := .signed) rfl hd, Out.ok_bind, if_pos rfl]
          exact (verifySigned_iff cr hcr rawE k hk hg m.packets).mpr hkp
      | inner _ hp hb hz hm' ho =>
        rename_i m1 p alg d inner
        have ht : m.packets.map (·.body.tag) = [8] := by rw [hp]; simp [hb, Body.tag]
        rw [ht, show messageMeaningful [8] = .ok true by decide, show matchTags [8] .encryptedMessage = .ok false by decide,
          show matchTags [8] .signedMessage = .ok false by decide, show matchTags [8] .compressedMessage = .ok true by decide]
        obtain ⟨f, pa, bd⟩ := p
        obtain rfl : bd = _ := hb
        simp only [Out.ok_bind, Bool.not_true, Bool.false_eq_true, if_false, if_true, hp, hz, hm']
        exact (ih m1).mpr ⟨hg, m', ho, hr⟩

/-- A message of one-pass packets, a literal packet and as many signatures verifies if one of the signatures is a good one and the one-pass packets
further inside name other keys. -/
theorem C37_binary_complete (cr : Crypto) (hcr : cr.Ok) (z : Zip) (rawE : E → Bytes) (readE : Bytes → Out E) (depth : Nat) (k : KeyObj E) (hk : k.Sized)
    (hm : k.meaningful = .ok true) {kp : KeyPkt} (hsk : SigningKey k kp) {kid : Bytes} (hkid : kp.keyid cr = .ok kid) (comp : Option (Fmt × Bool × UInt8))
    (fmt : Fmt) (part : Bool) (t : Tag11) (ops inside : List Tag4) (o : Tag4) (sigs inner : List (Tag2 E)) (s : Tag2 E)
    (hlen : ops.length = sigs.length) (hin : inside.length = inner.length) (ho : o.keyid = kid) (hother : ∀ o' ∈ inside, o'.keyid ≠ kid) {data inp : Bytes}
    (hdata : SignedContent rawE (⟨fmt, part, .literal t⟩ :: inner.map fun s => (⟨.new, false, .sig s⟩ : Pkt E)) data) (hh : Hashed rawE data s inp)
    (hg : GoodValues cr kp s inp) :
    verifyBinary cr z rawE readE (depth + 1) k ⟨comp, (ops ++ o :: inside).map (fun o => ⟨.new, false, .onePass o⟩) ++
      ⟨fmt, part, .literal t⟩ :: (inner ++ s :: sigs).map (fun s => ⟨.new, false, .sig s⟩)⟩ = .ok .yes := by
  rw [C37_binary_iff cr hcr z rawE readE (depth + 1) k hk]
  refine ⟨hm, _, .same _ _, Or.inr ⟨?_, kp, hsk, _, _, rfl, ?_, ?_, ⟨_, rfl, ?_⟩, ?_, ?_, ?_, ops.length, ?_, ?_, ?_⟩⟩
  · have hn : ∀ n, Derives .message (List.replicate n 4 ++ 11 :: List.replicate n 2) := by
      intro n
      induction n with
      | zero => exact .msgLiteral .literal
      | succ n ih =>
        have := Derives.msgSigned (.signedOnePass (.onePass ih))
        rw [List.replicate_succ, List.replicate_succ']
        simpa using this
    have e : Msg.tags (⟨comp, (ops ++ o :: inside).map (fun o => ⟨.new, false, .onePass o⟩) ++
        ⟨fmt, part, .literal t⟩ :: (inner ++ s :: sigs).map (fun s => ⟨.new, false, .sig s⟩)⟩ : Msg E) =
        [4] ++ (List.replicate (ops.length + inside.length) 4 ++ 11 :: List.replicate (ops.length + inside.length) 2) ++ [2] := by
      have h4 : ∀ l : List Tag4, (l.map fun o => (⟨.new, false, .onePass o⟩ : Pkt E)).map (·.body.tag) = List.replicate l.length 4 := by
        intro l; rw [List.map_map]; exact List.map_const'
      have h2 : ∀ l : List (Tag2 E), (l.map fun s => (⟨.new, false, .sig s⟩ : Pkt E)).map (·.body.tag) = List.replicate l.length 2 := by
        intro l; rw [List.map_map]; exact List.map_const'
      rw [Msg.tags, List.map_append, List.map_cons, h4, h2]
      simp only [List.length_append, List.length_cons]
      rw [show ops.length + (inside.length + 1) = (ops.length + inside.length) + 1 by omega, List.replicate_succ,
        show inner.length + (sigs.length + 1) = (ops.length + inside.length) + 1 by omega, List.replicate_succ']
      simp [Body.tag]
    rw [e]
    exact .signedOnePass (.onePass (hn _))
  · simp
  · intro p hp
    obtain ⟨o, -, rfl⟩ := List.mem_map.mp hp
    rfl
  · simp [Body.tag]
  · refine ⟨⟨.new, false, .sig ((s :: sigs).getLast (by simp))⟩, ?_, rfl⟩
    rw [List.getLast?_cons, List.getLast?_map, List.getLast?_append_of_ne_nil _ (by simp), List.getLast?_eq_some_getLast (by simp)]
    rfl
  · simp; omega
  · simp; omega
  · simp
  · have hP : ∀ A : List (Pkt E), A ++ ⟨fmt, part, .literal t⟩ :: (inner ++ s :: sigs).map (fun s => (⟨.new, false, .sig s⟩ : Pkt E)) =
        (A ++ ⟨fmt, part, .literal t⟩ :: inner.map fun s => (⟨.new, false, .sig s⟩ : Pkt E)) ++ ⟨.new, false, .sig s⟩ :: sigs.map fun s => ⟨.new, false, .sig s⟩ := by
      intro A; simp
    refine ⟨o, s, data, inp, ⟨⟨.new, false, .onePass o⟩, ?_, rfl⟩, ho ▸ hkid, ⟨⟨.new, false, .sig s⟩, ?_, rfl⟩, ?_, hh, hg⟩
    · simp
    · dsimp only
      rw [hP]
      set Q := (ops ++ o :: inside).map (fun o => (⟨.new, false, .onePass o⟩ : Pkt E)) ++ ⟨fmt, part, .literal t⟩ :: inner.map fun s => (⟨.new, false, .sig s⟩ : Pkt E)
      rw [show (Q ++ ⟨.new, false, .sig s⟩ :: sigs.map fun s => (⟨.new, false, .sig s⟩ : Pkt E)).length - (ops.length + 1) = Q.length by
        rw [List.length_append, List.length_cons, List.length_map, hlen]; omega]
      simp
    · dsimp only
      rw [hP]
      set Q := (ops ++ o :: inside).map (fun o => (⟨.new, false, .onePass o⟩ : Pkt E)) ++ ⟨fmt, part, .literal t⟩ :: inner.map fun s => (⟨.new, false, .sig s⟩ : Pkt E) with hQ
      rw [show (Q ++ ⟨.new, false, .sig s⟩ :: sigs.map fun s => (⟨.new, false, .sig s⟩ : Pkt E)).length - (ops.length + 1) = Q.length by
        rw [List.length_append, List.length_cons, List.length_map, hlen]; omega, List.take_left, hQ, List.drop_left]
      exact hdata
  · intro j' h1 h2
    rw [List.length_map, List.length_append, List.length_cons] at h2
    obtain ⟨i, rfl⟩ : ∃ i, j' = ops.length + 1 + i := ⟨j' - (ops.length + 1), by omega⟩
    have hi : i < inside.length := by omega
    refine ⟨inside[i], kid, ⟨⟨.new, false, .onePass inside[i]⟩, ?_, rfl⟩, hkid, Or.inl (hother _ (List.getElem_mem hi))⟩
    dsimp only
    rw [List.getElem?_append_left (by simp; omega), List.getElem?_map, List.getElem?_append_right (by omega),
      show ops.length + 1 + i - ops.length = i + 1 by omega, List.getElem?_cons_succ, List.getElem?_eq_getElem hi]
    rfl

/-- **Defect.** A signed message of the other form RFC 4880 11.3 allows, a signature packet in front of the message, is never accepted. -/
theorem C37_prefix_fails (cr : Crypto) (hcr : cr.Ok) (z : Zip) (rawE : E → Bytes) (readE : Bytes → Out E) (depth : Nat) (k : KeyObj E) (hk : k.Sized)
    (comp : Option (Fmt × Bool × UInt8)) (p : Pkt E) (s : Tag2 E) (hp : p.body = .sig s) (rest : List (Pkt E)) (m : Msg E) (hm : m = ⟨comp, rest⟩)
    (hd : Derives .message m.tags) : Derives .signed (Msg.tags ⟨comp, p :: rest⟩) ∧ verifyBinary cr z rawE readE depth k ⟨comp, p :: rest⟩ ≠ .ok .yes := by
  subst hm
  have ht : Msg.tags (⟨comp, p :: rest⟩ : Msg E) = [2] ++ Msg.tags (⟨comp, rest⟩ : Msg E) := by simp [Msg.tags, hp, Body.tag]
  refine ⟨ht ▸ .signedPrefix hd, fun h => ?_⟩
  obtain ⟨-, m', ho, hr⟩ := (C37_binary_iff cr hcr z rawE readE depth k hk _).mp h
  cases ho with
  | same =>
    rcases hr with ⟨q, t, hq, hb⟩ | ⟨-, kp, -, ops, rest', he, hne, hops, -⟩
    · obtain ⟨rfl, -⟩ := List.cons.inj hq
      rw [hp] at hb; simp at hb
    · cases ops with
      | nil => exact hne rfl
      | cons a r =>
        obtain ⟨rfl, -⟩ := List.cons.inj he
        have := hops p (by simp)
        rw [hp] at this
        exact absurd (show (2 : Nat) = 4 from this) (by decide)
  | inner _ hq hb _ _ _ =>
    obtain ⟨rfl, -⟩ := List.cons.inj hq
    rw [hp] at hb; simp at hb

/-- Two signatures over a literal packet; the outer one is by the key, the inner one by another key (its values do not matter). The outer signature is
over the contents of the literal packet and the body of the inner signature. -/
def c37Inner : Tag2 Empty := createSig 4 0 17 8 [1, 2, 3, 4, 5, 6, 7, 8] 7

def c37Outer : Bytes := match signedOctets (fun e => nomatch e) [(⟨.new, false, .literal ⟨0x62, [], 7, [1, 2]⟩⟩ : Pkt Empty), ⟨.new, false, .sig c37Inner⟩] with
  | .ok d => d
  | _ => []

example : verifyBinary demoCrypto demoZip (fun e => nomatch e) (fun _ => .throw) 1 c37Key ⟨none, [⟨.new, false, .onePass ⟨3, 0, 8, 17, c37Kid, 0⟩⟩,
    ⟨.new, false, .onePass ⟨3, 0, 8, 17, [1, 2, 3, 4, 5, 6, 7, 8], 1⟩⟩, ⟨.new, false, .literal ⟨0x62, [], 7, [1, 2]⟩⟩, ⟨.new, false, .sig c37Inner⟩,
    ⟨.new, false, .sig (c37Complete (createSig 4 0 17 8 c37Kid 7) (sign00Input (fun e => nomatch e) c37Outer))⟩]⟩ = .ok .yes := by decide +kernel

/-- **Defect.** Two people sign the same contents, as RFC 4880 5.4 has it (the first one-pass packet says by its last octet that the next signature is
over the same data): the outer signature alone, over the contents, is accepted, in the message with both it is not, since the library adds the
body of the inner signature to what is hashed. -/
theorem C37_two_signers_fails : ∃ s : Tag2 Empty, s = c37Complete (createSig 4 0 17 8 c37Kid 7) (sign00Input (fun e => nomatch e) [1, 2]) ∧
    verifyBinary demoCrypto demoZip (fun e => nomatch e) (fun _ => .throw) 1 c37Key ⟨none, [⟨.new, false, .onePass ⟨3, 0, 8, 17, c37Kid, 1⟩⟩,
      ⟨.new, false, .literal ⟨0x62, [], 7, [1, 2]⟩⟩, ⟨.new, false, .sig s⟩]⟩ = .ok .yes ∧
    verifyBinary demoCrypto demoZip (fun e => nomatch e) (fun _ => .throw) 1 c37Key ⟨none, [⟨.new, false, .onePass ⟨3, 0, 8, 17, c37Kid, 0⟩⟩,
      ⟨.new, false, .onePass ⟨3, 0, 8, 17, [1, 2, 3, 4, 5, 6, 7, 8], 1⟩⟩, ⟨.new, false, .literal ⟨0x62, [], 7, [1, 2]⟩⟩, ⟨.new, false, .sig c37Inner⟩,
      ⟨.new, false, .sig s⟩]⟩ = .ok .no := ⟨_, rfl, by decide +kernel⟩

end OpenPGP
