import Verif.Model.Fill
import Verif.Props.C45
import Verif.Props.C63

/-!
# C64: filling in the signatures of a key
-/
namespace OpenPGP
open Rfc
variable {E : Type}

/-! ## What a signature in a key is about -/

/-- The packets up to here end with `q` and signatures behind it. -/
def Behind (before : List (Pkt E)) (q : Pkt E) : Prop := ∃ a b, before = a ++ q :: b ∧ ∀ x ∈ b, ∃ s, x.body = .sig s

/-- The last key or subkey packet up to here is `q`. -/
def LastKey (before : List (Pkt E)) (q : Pkt E) : Prop := ∃ a b, before = a ++ q :: b ∧ ∀ x ∈ b, x.body.keyPart = none

/-- What a signature of this type behind these packets is about, in a key with the given primary key. -/
inductive About (primary : KeyPkt) (before : List (Pkt E)) : UInt8 → Signed E → Prop
  | cert (t : UInt8) (q : Pkt E) (ht : t ∈ [0x10, 0x11, 0x12, 0x13, 0x30]) (hq : Behind before q) (hu : q.body.tag = 13 ∨ q.body.tag = 17) : About primary before t (.user primary q.body)
  | binding (q : Pkt E) (s : Tag5) (hq : LastKey before q) (hs : q.body = .secretSubkey s) : About primary before 0x18 (.binding primary s.key)
  | revocation : About primary before 0x20 (.key primary)
  | subRevocation (q : Pkt E) (s : KeyPkt) (hq : LastKey before q) (ht : q.body.tag = 7 ∨ q.body.tag = 14) (hs : q.body.keyPart = some s) : About primary before 0x28 (.key s)

/-- What becomes of a packet. -/
inductive FilledPkt (cr : Crypto) (rawE : E → Bytes) (primary : KeyPkt) (keyid : Bytes) (before : List (Pkt E)) : Pkt E → Pkt E → Prop
  /-- packets that are no signatures and signatures that name others stay -/
  | other (p : Pkt E) (h : ∀ s, p.body = .sig s → s.getKeyid ≠ .ok keyid) : FilledPkt cr rawE primary keyid before p p
  /-- signatures that name the key get the values of a signature by the primary key over what they are about, and nothing else -/
  | own (p : Pkt E) (s : Tag2 E) (c : Signed E) (i l : Bytes) (vals : List Nat) (hp : p.body = .sig s) (hid : s.getKeyid = .ok keyid) (hc : About primary before s.type c)
      (hi : Prescribed rawE c s i) (hl : l = (cr.hash s.hash i).take 2) (hh : ∃ n, hashLen s.hash = some n) (hv : SignatureHolds s.hash primary.pka (cr.hash s.hash i) primary.mpi vals) :
      FilledPkt cr rawE primary keyid before p { p with body := .sig { s with left16 := l, mpi := vals } }
  /-- except certifications and their revocations where no user stands -/
  | nobody (p : Pkt E) (s : Tag2 E) (hp : p.body = .sig s) (ht : s.type ∈ [0x10, 0x11, 0x12, 0x13, 0x30]) (hn : ∀ q, Behind before q → ¬ (q.body.tag = 13 ∨ q.body.tag = 17)) :
      FilledPkt cr rawE primary keyid before p p

theorem refinish_ok {cr : Crypto} (hcr : cr.Ok) {t : Tag5} {pass : Bytes} {pri draws : List Nat} (hopen : t.decryptSecretKeys cr pass = .ok pri)
    (hsz : ∀ n ∈ t.key.mpi, bitsize n ≤ 65528) (hp : SigningPair t.key.pka t.key.mpi pri) {sig s' : Tag2 E} {input : Out Bytes}
    (hm : (digestOf cr sig input >>= fun d => refinish cr draws t pass sig d) = .ok s') :
    ∃ i vals, input = .ok i ∧ (∃ n, hashLen sig.hash = some n) ∧ s' = { sig with left16 := (cr.hash sig.hash i).take 2, mpi := vals } ∧
      SignatureHolds sig.hash t.key.pka (cr.hash sig.hash i) t.key.mpi vals := by
  obtain ⟨d, hd, hm⟩ := Out.bind_eq_ok.mp hm
  rw [refinish] at hm
  obtain ⟨l, hl, hm⟩ := Out.bind_eq_ok.mp hm
  obtain ⟨pri', hpri, hm⟩ := Out.bind_eq_ok.mp hm
  obtain ⟨vals, hv, hm⟩ := Out.bind_eq_ok.mp hm
  obtain rfl := Out.ok.inj hm
  have : (digestOf cr sig input >>= fun d => finishSig cr draws t pass sig d) = .ok (if vals = [] then none else some { sig with left16 := l, mpi := vals }) := by
    rw [hd, Out.ok_bind, finishSig, hl, Out.ok_bind, hpri, Out.ok_bind, hv, Out.ok_bind]
    split <;> rfl
  obtain ⟨i, n, hi, hn, -, h⟩ := digestFinish_ok hcr hopen hsz this
  obtain ⟨v, h, hs⟩ := h hp
  by_cases h0 : vals = []
  · rw [if_pos h0] at h; cases h
  · rw [if_neg h0] at h
    rw [if_neg h0]
    exact ⟨i, v, hi, ⟨n, hn⟩, Option.some.inj h, hs.1⟩

/-- The pointers of the loop. -/
structure Pointers (primary : Tag5) (before : List (Pkt E)) (key user : Option (Body E)) : Prop where
  key_some : ∀ k, key = some k → ∃ q, LastKey before q ∧ q.body = k
  user_some : ∀ u, user = some u → ∃ q, Behind before q ∧ q.body = u ∧ (u.tag = 13 ∨ u.tag = 17)
  user_none : user = none → ∀ q, Behind before q → ¬ (q.body.tag = 13 ∨ q.body.tag = 17)
  only : ∀ t, key = some (.secretKey t) → t = primary

theorem behind_snoc {before : List (Pkt E)} {p q : Pkt E} : Behind (before ++ [p]) q ↔ q = p ∨ (∃ s, p.body = .sig s) ∧ Behind before q := by
  constructor
  · rintro ⟨a, b, h, hb⟩
    rcases List.eq_nil_or_concat b with rfl | ⟨b, x, rfl⟩
    · have := List.append_inj_right' h rfl
      exact .inl (List.cons.inj this).1.symm
    · rw [List.concat_eq_append, ← List.cons_append, ← List.append_assoc] at h
      obtain ⟨h1, h2⟩ := List.append_inj' h rfl
      obtain rfl := (List.cons.inj h2).1
      exact .inr ⟨hb _ (by simp), a, b, h1, fun x hx => hb x (by simp [hx])⟩
  · rintro (rfl | ⟨hs, a, b, rfl, hb⟩)
    · exact ⟨before, [], rfl, by simp⟩
    · refine ⟨a, b ++ [p], by simp, fun x hx => ?_⟩
      rcases List.mem_append.mp hx with hx | hx
      · exact hb x hx
      · obtain rfl := List.mem_singleton.mp hx
        exact hs

theorem lastKey_snoc {before : List (Pkt E)} {p q : Pkt E} (hp : p.body.keyPart = none) (h : LastKey before q) : LastKey (before ++ [p]) q := by
  obtain ⟨a, b, rfl, hb⟩ := h
  refine ⟨a, b ++ [p], by simp, fun x hx => ?_⟩
  rcases List.mem_append.mp hx with hx | hx
  · exact hb x hx
  · obtain rfl := List.mem_singleton.mp hx
    exact hp

theorem fillSig_ok {cr : Crypto} (hcr : cr.Ok) {rawE : E → Bytes} {t : Tag5} {pass : Bytes} {pri draws : List Nat} (hopen : t.decryptSecretKeys cr pass = .ok pri)
    (hsz : ∀ n ∈ t.key.mpi, bitsize n ≤ 65528) (hpair : SigningPair t.key.pka t.key.mpi pri) {before : List (Pkt E)} {key user : Option (Body E)}
    (hptr : Pointers t before key user) (hsome : key ≠ none) (p : Pkt E) (s s' : Tag2 E) (hp : p.body = .sig s) (keyid : Bytes) (hid : s.getKeyid = .ok keyid)
    (h : fillSig cr rawE draws pass (.secretKey t) t key user s = .ok (some s')) :
    FilledPkt cr rawE t.key keyid before p { p with body := .sig s' } := by
  have same : ({ p with body := .sig s } : Pkt E) = p := by rw [← hp]
  have main : ∀ (c : Signed E) (input : Out Bytes), About t.key before s.type c → c.fits s.type → s.type ≠ 2 → (∀ k id, c = .user k id → id.tag = 13 ∨ id.tag = 17) →
      (∀ i, input = .ok i → libraryInput rawE c s = .ok i ∧ (s.version = 3 ∨ s.version = 4)) →
      (do let d ← digestOf cr s input; let s ← refinish cr draws t pass s d; return some s : Out (Option (Tag2 E))) = .ok (some s') →
      FilledPkt cr rawE t.key keyid before p { p with body := .sig s' } := by
    intro c input hc hf h2 hu hin h
    obtain ⟨d, hd, h⟩ := Out.bind_eq_ok.mp h
    obtain ⟨x, hx, h⟩ := Out.bind_eq_ok.mp h
    have hx : (digestOf cr s input >>= fun d => refinish cr draws t pass s d) = .ok x := by rw [hd, Out.ok_bind, hx]
    obtain rfl := Option.some.inj (Out.ok.inj h)
    obtain ⟨i, vals, hi, hh, rfl, hv⟩ := refinish_ok hcr hopen hsz hpair hx
    obtain ⟨hl, hver⟩ := hin i hi
    exact .own p s c i _ vals hp hid hc (prescribed_of_input rawE c s hf h2 hu i hl hver) rfl hh hv
  unfold fillSig at h
  split at h
  · rename_i hcert
    have ht : s.type ∈ ([0x10, 0x11, 0x12, 0x13, 0x30] : List UInt8) := by
      simp only [isCertification, Bool.or_eq_true, beq_iff_eq] at hcert
      simp only [List.mem_cons, List.not_mem_nil, or_false]
      tauto
    have h30 : s.type ≠ 0x30 := by
      intro h
      rw [h] at hcert
      exact absurd hcert (by decide)
    split at h
    · rename_i tk
      obtain rfl := hptr.only tk rfl
      split at h
      · obtain rfl := Option.some.inj (Out.ok.inj h)
        rw [same]
        exact .nobody p s hp ht (hptr.user_none rfl)
      · rename_i u
        obtain ⟨q, hq, rfl, hu⟩ := hptr.user_some u rfl
        refine main (.user tk.key q.body) _ (.cert _ q ht hq hu) ?_ ?_ ?_ ?_ h
        · simpa [Signed.fits] using ht
        · intro h2
          rw [h2] at hcert
          exact absurd hcert (by decide)
        · intro k id he
          obtain ⟨-, rfl⟩ := Signed.user.inj he
          exact hu
        · intro i hi
          refine ⟨by rw [libraryInput, if_neg h30]; exact hi, ?_⟩
          rw [signCertInput, if_pos hcert] at hi
          exact (signUserInput_version hi).2
    · cases h
    · cases h
  · split at h
    · rename_i h18
      split at h
      · rename_i sk
        obtain ⟨q, hq, hb⟩ := hptr.key_some _ rfl
        refine main (.binding t.key sk.key) _ (h18 ▸ .binding q sk hq hb) (.inl h18) (by rw [h18]; decide) (fun _ _ h => by cases h) ?_ h
        intro i hi
        exact ⟨hi, addtrailer_version hi⟩
      · cases h
      · cases h
    · split at h
      · rename_i h20
        refine main (.key t.key) _ (h20 ▸ .revocation) (.inr (.inl h20)) (by rw [h20]; decide) (fun _ _ h => by cases h) ?_ h
        intro i hi
        rw [sign20Input, if_neg (not_not.mpr h20)] at hi
        exact ⟨by rw [libraryInput, if_pos h20, sign20Input, if_neg (not_not.mpr h20)]; exact hi, addtrailer_version hi⟩
      · rename_i h20
        split at h
        · rename_i h28
          split at h
          · rename_i k
            obtain ⟨q, hq, hb⟩ := hptr.key_some _ rfl
            have main' : ∀ kp, (k.tag = 7 ∨ k.tag = 14) → k.keyPart = some kp → sign28Input rawE k s = addtrailer rawE (overkey kp) s →
                FilledPkt cr rawE t.key keyid before p { p with body := .sig s' } := by
              intro kp hkt hkp hin
              refine main (.key kp) _ (h28 ▸ .subRevocation q kp hq (hb ▸ hkt) (hb ▸ hkp)) (.inr (.inr h28)) (by rw [h28]; decide) (fun _ _ h => by cases h) ?_ h
              intro i hi
              rw [hin] at hi
              exact ⟨by rw [libraryInput, if_neg h20, if_pos h28, sign28Input, if_neg (not_not.mpr h28)]; exact hi, addtrailer_version hi⟩
            cases k with
            | publicSubkey kp => exact main' kp (.inr rfl) rfl (by rw [sign28Input, if_neg (not_not.mpr h28)])
            | secretSubkey kp => exact main' kp.key (.inl rfl) rfl (by rw [sign28Input, if_neg (not_not.mpr h28)])
            | _ =>
              obtain ⟨d, hd, -⟩ := Out.bind_eq_ok.mp h
              obtain ⟨i, hi, -⟩ := Out.bind_eq_ok.mp hd
              cases hi
          · exact absurd rfl hsome
        · split at h
          · rename_i h30
            have ht : s.type ∈ ([0x10, 0x11, 0x12, 0x13, 0x30] : List UInt8) := by simp [h30]
            split at h
            · rename_i u
              obtain ⟨q, hq, rfl, hu⟩ := hptr.user_some u rfl
              refine main (.user t.key q.body) _ (.cert _ q ht hq hu) (by simp [Signed.fits, h30]) (by rw [h30]; decide) ?_ ?_ h
              · intro k id he
                obtain ⟨-, rfl⟩ := Signed.user.inj he
                exact hu
              · intro i hi
                exact ⟨by rw [libraryInput, if_pos h30]; exact hi, (signUserInput_version hi).2⟩
            · obtain rfl := Option.some.inj (Out.ok.inj h)
              rw [same]
              exact .nobody p s hp ht (hptr.user_none rfl)
          · cases h

/-- The loop, for a relation between packets before and after that holds of what is left alone and of what is filled in. -/
theorem fillLoop_ok {cr : Crypto} {rawE : E → Bytes} {t : Tag5} {pass : Bytes} {draws : Nat → List Nat} (keyid : Bytes) (R : List (Pkt E) → Pkt E → Pkt E → Prop)
    (hother : ∀ before p, (∀ s, p.body = .sig s → s.getKeyid ≠ .ok keyid) → R before p p)
    (hown : ∀ before key user draws p s s', Pointers t before key user → key ≠ none → p.body = .sig s → s.getKeyid = .ok keyid →
      fillSig cr rawE draws pass (.secretKey t) t key user s = .ok (some s') → R before p { p with body := .sig s' }) :
    ∀ (ps : List (Pkt E)) (before : List (Pkt E)) (key user : Option (Body E)) (i : Nat) (ps' : List (Pkt E)), Pointers t before key user → key ≠ none →
      (∀ p ∈ ps, p.body.tag ≠ 5) → fillLoop cr rawE draws pass keyid (.secretKey t) t i key user ps = .ok (some ps') →
      ps.length = ps'.length ∧ ∀ a p b, ps = a ++ p :: b → ∃ p', ps'[a.length]? = some p' ∧ R (before ++ a) p p' := by
  intro ps
  induction ps with
  | nil =>
    intro before key user i ps' _ _ _ h
    obtain rfl := Option.some.inj (Out.ok.inj h)
    exact ⟨rfl, fun a p b h => by simp at h⟩
  | cons p ps ih =>
    intro before key user i ps' hptr hsome h5 h
    have step : ∀ (p' : Pkt E) key' user' rest, Pointers t (before ++ [p]) key' user' → key' ≠ none → R before p p' →
        fillLoop cr rawE draws pass keyid (.secretKey t) t (i + 1) key' user' ps = .ok rest → rest.map (p' :: ·) = some ps' →
        (p :: ps).length = ps'.length ∧ ∀ a q b, p :: ps = a ++ q :: b → ∃ q', ps'[a.length]? = some q' ∧ R (before ++ a) q q' := by
      intro p' key' user' rest hptr' hs hf hl hm
      obtain ⟨qs, rfl, rfl⟩ := Option.map_eq_some_iff.mp hm
      obtain ⟨h1, h2⟩ := ih _ _ _ _ _ hptr' hs (fun q hq => h5 q (by simp [hq])) hl
      refine ⟨by simp [h1], ?_⟩
      intro a q b he
      cases a with
      | nil =>
        obtain ⟨rfl, -⟩ := List.cons.inj he
        exact ⟨p', rfl, by simpa using hf⟩
      | cons x a =>
        rw [List.cons_append] at he
        obtain ⟨rfl, he'⟩ := List.cons.inj he
        obtain ⟨q', hq, hf⟩ := h2 a q b he'
        exact ⟨q', hq, by simpa using hf⟩
    unfold fillLoop at h
    split at h
    · rename_i hk
      obtain ⟨rest, hr, h⟩ := Out.bind_eq_ok.mp h
      refine step p _ _ rest ⟨?_, by simp, ?_, ?_⟩ (by simp) (hother _ p ?_) hr (Out.ok.inj h)
      · intro k hk
        obtain rfl := Option.some.inj hk
        exact ⟨p, ⟨before, [], rfl, by simp⟩, rfl⟩
      · intro _ q hq
        rcases behind_snoc.mp hq with rfl | ⟨⟨s, hs⟩, -⟩
        · omega
        · rw [hs] at hk; simp [Body.tag] at hk
      · intro tk htk
        have := h5 p (by simp)
        rw [Option.some.inj htk] at this
        exact absurd rfl this
      · intro s hs
        rw [hs] at hk; simp [Body.tag] at hk
    · rename_i hk
      split at h
      · rename_i hu
        obtain ⟨rest, hr, h⟩ := Out.bind_eq_ok.mp h
        refine step p _ _ rest ⟨?_, ?_, by simp, hptr.only⟩ hsome (hother _ p ?_) hr (Out.ok.inj h)
        · intro k hk
          obtain ⟨q, hq, hb⟩ := hptr.key_some k hk
          refine ⟨q, lastKey_snoc ?_ hq, hb⟩
          cases hb : p.body <;> rw [hb] at hu <;> first | rfl | (simp [Body.tag] at hu)
        · intro u hu'
          obtain rfl := Option.some.inj hu'
          exact ⟨p, behind_snoc.mpr (.inl rfl), rfl, hu⟩
        · intro s hs
          rw [hs] at hu; simp [Body.tag] at hu
      · rename_i hu
        split at h
        · rename_i s hs
          obtain ⟨id, hid, h⟩ := Out.bind_eq_ok.mp h
          obtain ⟨o, ho, h⟩ := Out.bind_eq_ok.mp h
          cases o with
          | none => cases h
          | some s' =>
            obtain ⟨rest, hr, h⟩ := Out.bind_eq_ok.mp h
            refine step { p with body := .sig s' } _ _ rest ⟨?_, ?_, ?_, hptr.only⟩ hsome ?_ hr (Out.ok.inj h)
            · intro k hk
              obtain ⟨q, hq, hb⟩ := hptr.key_some k hk
              exact ⟨q, lastKey_snoc (by rw [hs]; rfl) hq, hb⟩
            · intro u hu
              obtain ⟨q, hq, h⟩ := hptr.user_some u hu
              exact ⟨q, behind_snoc.mpr (.inr ⟨⟨s, hs⟩, hq⟩), h⟩
            · intro hn q hq
              rcases behind_snoc.mp hq with rfl | ⟨-, hq⟩
              · exact hu
              · exact hptr.user_none hn q hq
            · split at ho
              · rename_i he
                exact hown _ _ _ _ p s s' hptr hsome hs (he ▸ hid) ho
              · rename_i he
                obtain rfl := Option.some.inj (Out.ok.inj ho)
                rw [← hs]
                refine hother _ p fun s2 hs2 hid2 => he ?_
                rw [hs] at hs2
                obtain rfl := Body.sig.inj hs2
                rw [hid] at hid2
                exact Out.ok.inj hid2
        · cases h

/-- The packets of a meaningful secret key: the primary key, and no second one. -/
theorem secret_layout {k : KeyObj E} (hk : k.kind = .sec) (hm : k.meaningful = .ok true) :
    ∃ p t ps, k.packets = p :: ps ∧ p.body = .secretKey t ∧ ∀ q ∈ ps, q.body.tag ≠ 5 := by
  obtain ⟨kind, ps⟩ := k
  obtain rfl : kind = .sec := hk
  rw [KeyObj.meaningful, C30_meaningful_iff .sec 5 7 rfl] at hm
  obtain ⟨b, revs, users, subs, he, hp, hr, hu, -, hs, -⟩ := hm
  cases ps with
  | nil => cases he
  | cons p ps =>
    rw [List.map_cons] at he
    obtain ⟨rfl, he'⟩ := List.cons.inj he
    have : ∃ t, p.body = .secretKey t := by
      cases hb : p.body with
      | secretKey t => exact ⟨t, rfl⟩
      | priv n x => rw [hb] at hp; simp [Body.tag] at hp; omega
      | _ => rw [hb] at hp; simp [Body.tag] at hp
    obtain ⟨t, ht⟩ := this
    refine ⟨p, t, ps, rfl, ht, ?_⟩
    intro q hq
    have hq : q.body ∈ revs ++ users.flatten ++ subs.flatten := he' ▸ List.mem_map_of_mem hq
    rcases List.mem_append.mp hq with h | h
    · rcases List.mem_append.mp h with h | h
      · obtain ⟨s, hs, -⟩ := hr _ h
        rw [hs]; simp [Body.tag]
      · obtain ⟨g, hg, h⟩ := List.mem_flatten.mp h
        have hb := hu g hg
        cases hb with
        | id u sigs hsig =>
          rcases List.mem_cons.mp h with h | h
          · rw [h]; simp [Body.tag]
          · rcases hsig _ h with ⟨s, hs, -⟩ | ⟨s, hs, -⟩ <;> rw [hs] <;> simp [Body.tag]
        | «attribute» l sigs hsig =>
          rcases List.mem_cons.mp h with h | h
          · rw [h]; simp [Body.tag]
          · obtain ⟨s, hs, -⟩ := hsig _ h
            rw [hs]; simp [Body.tag]
    · obtain ⟨g, hg, h⟩ := List.mem_flatten.mp h
      obtain ⟨b, sigs, rfl, hb, hsig, -⟩ := hs g hg
      rcases List.mem_cons.mp h with h | h
      · rw [h, hb]; decide
      · obtain ⟨s, hs, -⟩ := hsig _ h
        rw [hs]; simp [Body.tag]

theorem first_pointers {p : Pkt E} {t : Tag5} (hp : p.body = .secretKey t) : Pointers t [p] (some p.body) none := by
  refine ⟨?_, by simp, ?_, ?_⟩
  · intro k hk
    obtain rfl := Option.some.inj hk
    exact ⟨p, ⟨[], [], rfl, by simp⟩, rfl⟩
  · intro _ q hq
    rcases behind_snoc (before := []).mp hq with rfl | ⟨⟨s, hs⟩, -⟩
    · rw [hp]; simp [Body.tag]
    · rw [hs] at hp; cases hp
  · intro u hu
    rw [hp] at hu
    exact (Body.secretKey.inj (Option.some.inj hu)).symm

/-- What `fill_key_sigs` does first. -/
theorem fillKeySigs_eq {cr : Crypto} {rawE : E → Bytes} {draws : Nat → List Nat} {k : KeyObj E} {pass : Bytes} {p : Pkt E} {t : Tag5} {ps : List (Pkt E)}
    (hps : k.packets = p :: ps) (hp : p.body = .secretKey t) (hm : k.meaningful = .ok true) {r : Option (KeyObj E)} (h : fillKeySigs cr rawE draws k pass = .ok r) :
    ∃ keyid l, k.keyid cr = .ok keyid ∧ fillLoop cr rawE draws pass keyid (.secretKey t) t 1 (some p.body) none ps = .ok l ∧
      r = l.map fun l => { k with packets := p :: l } := by
  rw [fillKeySigs, hm, Out.ok_bind] at h
  simp only [Bool.not_true, Bool.false_eq_true, if_false] at h
  obtain ⟨keyid, hid, h⟩ := Out.bind_eq_ok.mp h
  rw [hps] at h
  simp only [hp, Body.secretPart] at h
  obtain ⟨l, hl, h⟩ := Out.bind_eq_ok.mp h
  unfold fillLoop at hl
  rw [if_pos (by rw [hp]; exact .inl rfl)] at hl
  obtain ⟨l', hl', hl⟩ := Out.bind_eq_ok.mp hl
  obtain rfl := Out.ok.inj hl
  refine ⟨keyid, l', hid, hl', ?_⟩
  rw [← Out.ok.inj h]
  cases l' <;> rfl

/-- The whole key, for such a relation. -/
theorem fillKeySigs_ok {cr : Crypto} {rawE : E → Bytes} {draws : Nat → List Nat} {k : KeyObj E} (hk : k.kind = .sec) {pass : Bytes} {p : Pkt E} {t : Tag5}
    (hp : k.packets.head? = some p) (ht : p.body = .secretKey t) (R : Bytes → List (Pkt E) → Pkt E → Pkt E → Prop)
    (hother : ∀ keyid before p, (∀ s, p.body = .sig s → s.getKeyid ≠ .ok keyid) → R keyid before p p)
    (hown : ∀ keyid before key user draws p s s', Pointers t before key user → key ≠ none → p.body = .sig s → s.getKeyid = .ok keyid →
      fillSig cr rawE draws pass (.secretKey t) t key user s = .ok (some s') → R keyid before p { p with body := .sig s' })
    {k' : KeyObj E} (h : fillKeySigs cr rawE draws k pass = .ok (some k')) :
    k'.kind = .sec ∧ k'.packets.length = k.packets.length ∧ ∃ keyid, k.keyid cr = .ok keyid ∧
      ∀ a q b, k.packets = a ++ q :: b → ∃ q', k'.packets[a.length]? = some q' ∧ R keyid a q q' := by
  have hm : k.meaningful = .ok true := by
    rw [fillKeySigs] at h
    obtain ⟨g, hg, h⟩ := Out.bind_eq_ok.mp h
    cases g with
    | true => exact hg
    | false => cases h
  obtain ⟨p', t', ps, hps, hp', h5⟩ := secret_layout hk hm
  rw [hps] at hp
  obtain rfl := Option.some.inj hp
  rw [ht] at hp'
  obtain rfl := Body.secretKey.inj hp'
  obtain ⟨keyid, l, hid, hl, hr⟩ := fillKeySigs_eq hps ht hm h
  cases l with
  | none => cases hr
  | some l =>
    obtain rfl := Option.some.inj hr
    obtain ⟨hlen, hall⟩ := fillLoop_ok keyid (R keyid) (hother keyid) (hown keyid) ps [p'] (some p'.body) none 1 l (first_pointers ht) (by simp) h5 hl
    refine ⟨hk, by simp [hps, hlen], keyid, hid, ?_⟩
    intro a q b he
    rw [hps] at he
    cases a with
    | nil =>
      obtain ⟨rfl, -⟩ := List.cons.inj he
      refine ⟨p', rfl, hother _ _ _ fun s hs => ?_⟩
      rw [ht] at hs; cases hs
    | cons x a =>
      rw [List.cons_append] at he
      obtain ⟨rfl, he'⟩ := List.cons.inj he
      exact hall a q b he'

/-- **What `fill_key_sigs` does to a key.** If it returns true, and the passphrase opens the primary key, the packets are as before, except that every signature that names the key
has the values of a signature by the primary key over what the signature is about. -/
theorem C64_filled (cr : Crypto) (hcr : cr.Ok) (rawE : E → Bytes) (draws : Nat → List Nat) (k : KeyObj E) (hk : k.kind = .sec) (pass : Bytes) (p : Pkt E) (t : Tag5)
    (hp : k.packets.head? = some p) (ht : p.body = .secretKey t) (pri : List Nat) (hopen : t.decryptSecretKeys cr pass = .ok pri)
    (hsz : ∀ n ∈ t.key.mpi, bitsize n ≤ 65528) (hpair : SigningPair t.key.pka t.key.mpi pri) (k' : KeyObj E) (h : fillKeySigs cr rawE draws k pass = .ok (some k')) :
    k'.kind = .sec ∧ k'.packets.length = k.packets.length ∧ ∃ keyid, k.keyid cr = .ok keyid ∧
      ∀ a q b, k.packets = a ++ q :: b → ∃ q', k'.packets[a.length]? = some q' ∧ FilledPkt cr rawE t.key keyid a q q' :=
  fillKeySigs_ok hk hp ht _ (fun _ _ p h => .other p h) (fun keyid _ _ _ _ p s s' hptr hsome hs hid h => fillSig_ok hcr hopen hsz hpair hptr hsome p s s' hs keyid hid h) h

/-- A key that is not meaningful is refused. -/
theorem C64_refused (cr : Crypto) (rawE : E → Bytes) (draws : Nat → List Nat) (k : KeyObj E) (pass : Bytes) (hm : k.meaningful = .ok false) : fillKeySigs cr rawE draws k pass = .ok none := by
  rw [fillKeySigs, hm]
  rfl

/-! ## When it returns false -/

/-- A signature that cannot be filled in where it stands: a certification that does not belong to the primary key, a binding that does not belong to a subkey, or another type. -/
def Unfit (before : List (Pkt E)) (s : Tag2 E) : Prop :=
  (s.type ∈ [0x10, 0x11, 0x12, 0x13] ∧ ∃ q, LastKey before q ∧ q.body.tag ≠ 5 ∧ q.body.keyPart ≠ none) ∨
  (s.type = 0x18 ∧ ∃ q, LastKey before q ∧ q.body.tag ≠ 7 ∧ q.body.keyPart ≠ none) ∨
  s.type ∉ [0x10, 0x11, 0x12, 0x13, 0x18, 0x20, 0x28, 0x30]

theorem lastKey_find {before : List (Pkt E)} {q : Pkt E} (h : LastKey before q) (hq : q.body.keyPart ≠ none) :
    before.reverse.find? (fun x => x.body.keyPart.isSome) = some q := by
  obtain ⟨a, b, rfl, hb⟩ := h
  rw [List.reverse_append, List.reverse_cons, List.append_assoc, List.find?_append]
  have : b.reverse.find? (fun x => x.body.keyPart.isSome) = none := by
    rw [List.find?_eq_none]
    intro x hx
    rw [hb x (List.mem_reverse.mp hx)]
    simp
  rw [this]
  simp [Option.isSome_iff_ne_none, hq]

theorem unfit_iff {before : List (Pkt E)} {q : Pkt E} (h : LastKey before q) (hq : q.body.keyPart ≠ none) (s : Tag2 E) :
    Unfit before s ↔ (s.type ∈ ([0x10, 0x11, 0x12, 0x13] : List UInt8) ∧ q.body.tag ≠ 5) ∨ (s.type = 0x18 ∧ q.body.tag ≠ 7) ∨
      s.type ∉ ([0x10, 0x11, 0x12, 0x13, 0x18, 0x20, 0x28, 0x30] : List UInt8) := by
  have : ∀ n, (∃ q, LastKey before q ∧ q.body.tag ≠ n ∧ q.body.keyPart ≠ none) ↔ q.body.tag ≠ n := by
    intro n
    constructor
    · rintro ⟨q', h', hn, hk⟩
      have := (lastKey_find h hq).symm.trans (lastKey_find h' hk)
      rwa [Option.some.inj this]
    · exact fun hn => ⟨q, h, hn, hq⟩
  rw [Unfit, this, this]

theorem fillSig_none {cr : Crypto} {rawE : E → Bytes} {t : Tag5} {pass : Bytes} {draws : List Nat} {before : List (Pkt E)} {key user : Option (Body E)}
    (hptr : Pointers t before key user) (hkey : ∀ k, key = some k → k.keyPart ≠ none) (hsome : key ≠ none) (body : Body E) (s : Tag2 E) (r : Option (Tag2 E))
    (h : fillSig cr rawE draws pass body t key user s = .ok r) : r = none ↔ Unfit before s := by
  obtain ⟨k, rfl⟩ := Option.ne_none_iff_exists'.mp hsome
  obtain ⟨q, hq, rfl⟩ := hptr.key_some k rfl
  rw [unfit_iff hq (hkey _ rfl)]
  have made : ∀ (input : Out Bytes), (do let d ← digestOf cr s input; let s ← refinish cr draws t pass s d; return some s : Out (Option (Tag2 E))) = .ok r → r ≠ none := by
    intro input h
    obtain ⟨d, -, h⟩ := Out.bind_eq_ok.mp h
    obtain ⟨x, -, h⟩ := Out.bind_eq_ok.mp h
    rw [← Out.ok.inj h]
    simp
  have kept : ∀ x : Tag2 E, Out.ok (some x) = .ok r → r ≠ none := fun x h => by rw [← Out.ok.inj h]; simp
  have gone : Out.ok none = .ok r → r = none := fun h => (Out.ok.inj h).symm
  unfold fillSig at h
  by_cases hc : isCertification s.type = true
  · rw [if_pos hc] at h
    have ht : s.type = 0x10 ∨ s.type = 0x11 ∨ s.type = 0x12 ∨ s.type = 0x13 := by simpa [isCertification, or_assoc] using hc
    have h18 : s.type ≠ 0x18 := by rcases ht with h | h | h | h <;> rw [h] <;> decide
    have : (s.type ∈ ([0x10, 0x11, 0x12, 0x13] : List UInt8)) := by simpa using ht
    have hall : s.type ∈ ([0x10, 0x11, 0x12, 0x13, 0x18, 0x20, 0x28, 0x30] : List UInt8) := by simp; tauto
    simp only [this, h18, hall, true_and, false_and, not_true, or_false]
    split at h
    · rename_i tk hk
      rw [Option.some.inj hk]
      simp only [Body.tag, ne_eq, not_true, iff_false]
      split at h
      · exact kept _ h
      · exact made _ h
    · rename_i v hk he
      simp only [gone h, true_iff]
      intro h5
      have : ∃ t, q.body = .secretKey t := by
        cases hb : q.body with
        | secretKey t => exact ⟨t, rfl⟩
        | priv n x => rw [hb] at h5; simp [Body.tag] at h5; omega
        | _ => rw [hb] at h5; simp [Body.tag] at h5
      obtain ⟨tk, ht⟩ := this
      exact hk tk ((Option.some.inj he).symm.trans ht)
    · rename_i hk; cases hk
  · rw [if_neg hc] at h
    have ht : ¬ (s.type = 0x10 ∨ s.type = 0x11 ∨ s.type = 0x12 ∨ s.type = 0x13) := by
      intro ht
      exact hc (by simpa [isCertification, or_assoc] using ht)
    have hn : s.type ∉ ([0x10, 0x11, 0x12, 0x13] : List UInt8) := by simpa using ht
    simp only [hn, false_and, false_or]
    by_cases h18 : s.type = 0x18
    · rw [if_pos h18] at h
      have hall : s.type ∈ ([0x10, 0x11, 0x12, 0x13, 0x18, 0x20, 0x28, 0x30] : List UInt8) := by simp [h18]
      simp only [h18, true_and]
      rw [h18] at hall
      simp only [hall, not_true, or_false]
      split at h
      · rename_i tk hk
        rw [Option.some.inj hk]
        simp only [Body.tag, ne_eq, not_true, iff_false]
        exact made _ h
      · rename_i v hk he
        simp only [gone h, true_iff]
        intro h7
        have : ∃ t, q.body = .secretSubkey t := by
          cases hb : q.body with
          | secretSubkey t => exact ⟨t, rfl⟩
          | priv n x => rw [hb] at h7; simp [Body.tag] at h7; omega
          | _ => rw [hb] at h7; simp [Body.tag] at h7
        obtain ⟨tk, ht⟩ := this
        exact hk tk ((Option.some.inj he).symm.trans ht)
      · rename_i hk; cases hk
    · rw [if_neg h18] at h
      simp only [h18, false_and, false_or]
      by_cases h20 : s.type = 0x20
      · rw [if_pos h20] at h
        simp only [made _ h, h20, false_iff]
        decide
      · rw [if_neg h20] at h
        by_cases h28 : s.type = 0x28
        · rw [if_pos h28] at h
          simp only [made _ h, h28, false_iff]
          decide
        · rw [if_neg h28] at h
          by_cases h30 : s.type = 0x30
          · rw [if_pos h30] at h
            have : r ≠ none := by
              split at h
              · exact made _ h
              · exact kept _ h
            simp only [this, h30, false_iff]
            decide
          · rw [if_neg h30] at h
            simp only [gone h, true_iff]
            simp
            tauto

theorem fillLoop_none {cr : Crypto} {rawE : E → Bytes} {t : Tag5} {pass : Bytes} {draws : Nat → List Nat} (keyid : Bytes) (body : Body E) :
    ∀ (ps : List (Pkt E)) (before : List (Pkt E)) (key user : Option (Body E)) (i : Nat) (r : Option (List (Pkt E))), Pointers t before key user → key ≠ none →
      (∀ k, key = some k → k.keyPart ≠ none) → (∀ p ∈ ps, p.body.tag ≠ 5 ∧ p.body.tag ∈ [2, 5, 6, 7, 13, 14, 17]) → fillLoop cr rawE draws pass keyid body t i key user ps = .ok r →
      (r = none ↔ ∃ a p b s, ps = a ++ p :: b ∧ p.body = .sig s ∧ s.getKeyid = .ok keyid ∧ Unfit (before ++ a) s) := by
  intro ps
  induction ps with
  | nil =>
    intro before key user i r _ _ _ _ h
    simp [← Out.ok.inj h]
  | cons p ps ih =>
    intro before key user i r hptr hsome hkey h5 h
    have step : ∀ (f : List (Pkt E) → List (Pkt E)) key' user' rest, Pointers t (before ++ [p]) key' user' → key' ≠ none → (∀ k, key' = some k → k.keyPart ≠ none) →
        (∀ s, p.body = .sig s → s.getKeyid = .ok keyid → ¬ Unfit before s) →
        fillLoop cr rawE draws pass keyid body t (i + 1) key' user' ps = .ok rest → rest.map f = r →
        (r = none ↔ ∃ a q b s, p :: ps = a ++ q :: b ∧ q.body = .sig s ∧ s.getKeyid = .ok keyid ∧ Unfit (before ++ a) s) := by
      intro f key' user' rest hptr' hs hk hf hl hm
      rw [← hm, Option.map_eq_none_iff, ih _ _ _ _ _ hptr' hs hk (fun q hq => h5 q (by simp [hq])) hl]
      constructor
      · rintro ⟨a, q, b, s, rfl, h1, h2, h3⟩
        exact ⟨p :: a, q, b, s, rfl, h1, h2, by simpa using h3⟩
      · rintro ⟨a, q, b, s, he, h1, h2, h3⟩
        cases a with
        | nil =>
          obtain ⟨rfl, -⟩ := List.cons.inj he
          exact absurd (by simpa using h3) (hf s h1 h2)
        | cons x a =>
          rw [List.cons_append] at he
          obtain ⟨rfl, he'⟩ := List.cons.inj he
          exact ⟨a, q, b, s, he', h1, h2, by simpa using h3⟩
    unfold fillLoop at h
    split at h
    · rename_i hk
      obtain ⟨rest, hr, h⟩ := Out.bind_eq_ok.mp h
      refine step _ _ _ rest ⟨?_, by simp, ?_, ?_⟩ (by simp) ?_ ?_ hr (Out.ok.inj h)
      · intro k hk
        obtain rfl := Option.some.inj hk
        exact ⟨p, ⟨before, [], rfl, by simp⟩, rfl⟩
      · intro _ q hq
        rcases behind_snoc.mp hq with rfl | ⟨⟨s, hs⟩, -⟩
        · omega
        · rw [hs] at hk; simp [Body.tag] at hk
      · intro tk htk
        have := (h5 p (by simp)).1
        rw [Option.some.inj htk] at this
        exact absurd rfl this
      · intro k hk'
        obtain rfl := Option.some.inj hk'
        cases hb : p.body <;> rw [hb] at hk <;> simp [Body.tag, Body.keyPart] at hk ⊢
        omega
      · intro s hs
        rw [hs] at hk; simp [Body.tag] at hk
    · rename_i hk
      split at h
      · rename_i hu
        obtain ⟨rest, hr, h⟩ := Out.bind_eq_ok.mp h
        refine step _ _ _ rest ⟨?_, ?_, by simp, hptr.only⟩ hsome hkey ?_ hr (Out.ok.inj h)
        · intro k hk
          obtain ⟨q, hq, hb⟩ := hptr.key_some k hk
          refine ⟨q, lastKey_snoc ?_ hq, hb⟩
          cases hb : p.body <;> rw [hb] at hu <;> first | rfl | (simp [Body.tag] at hu)
        · intro u hu'
          obtain rfl := Option.some.inj hu'
          exact ⟨p, behind_snoc.mpr (.inl rfl), rfl, hu⟩
        · intro s hs
          rw [hs] at hu; simp [Body.tag] at hu
      · rename_i hu
        split at h
        · rename_i s hs
          obtain ⟨id, hid, h⟩ := Out.bind_eq_ok.mp h
          obtain ⟨o, ho, h⟩ := Out.bind_eq_ok.mp h
          have hun : s.getKeyid = .ok keyid → (o = none ↔ Unfit before s) := by
            intro hid2
            rw [hid] at hid2
            rw [if_pos (Out.ok.inj hid2)] at ho
            exact fillSig_none hptr hkey hsome body s o ho
          cases o with
          | none =>
            simp only [← Out.ok.inj h, true_iff]
            have : id = keyid := by
              by_contra hne
              rw [if_neg hne] at ho
              cases ho
            exact ⟨[], p, ps, s, rfl, hs, this ▸ hid, by simpa using (hun (this ▸ hid)).mp rfl⟩
          | some s' =>
            obtain ⟨rest, hr, h⟩ := Out.bind_eq_ok.mp h
            refine step _ _ _ rest ⟨?_, ?_, ?_, hptr.only⟩ hsome hkey ?_ hr (Out.ok.inj h)
            · intro k hk
              obtain ⟨q, hq, hb⟩ := hptr.key_some k hk
              exact ⟨q, lastKey_snoc (by rw [hs]; rfl) hq, hb⟩
            · intro u hu
              obtain ⟨q, hq, h⟩ := hptr.user_some u hu
              exact ⟨q, behind_snoc.mpr (.inr ⟨⟨s, hs⟩, hq⟩), h⟩
            · intro hn q hq
              rcases behind_snoc.mp hq with rfl | ⟨-, hq⟩
              · exact hu
              · exact hptr.user_none hn q hq
            · intro s2 hs2 hid2
              rw [hs] at hs2
              obtain rfl := Body.sig.inj hs2
              rw [← hun hid2]
              simp
        · rename_i hns
          have := (h5 p (by simp)).2
          exfalso
          cases hb : p.body with
          | sig s => exact hns s hb
          | priv n x => rw [hb] at this; simp [Body.tag] at this; omega
          | _ => rw [hb] at this hk hu; simp [Body.tag] at this hk hu

/-- **When `fill_key_sigs` returns false** for a meaningful secret key: exactly if a signature that names the key cannot be filled in where it stands. -/
theorem C64_false_iff (cr : Crypto) (rawE : E → Bytes) (draws : Nat → List Nat) (k : KeyObj E) (hk : k.kind = .sec) (hm : k.meaningful = .ok true) (pass keyid : Bytes)
    (hid : k.keyid cr = .ok keyid) (r : Option (KeyObj E)) (h : fillKeySigs cr rawE draws k pass = .ok r) :
    r = none ↔ ∃ a p b s, k.packets = a ++ p :: b ∧ p.body = .sig s ∧ s.getKeyid = .ok keyid ∧ Unfit a s := by
  obtain ⟨p, t, ps, hps, hp, h5⟩ := secret_layout hk hm
  obtain ⟨keyid', l, hid', hl, rfl⟩ := fillKeySigs_eq hps hp hm h
  rw [hid] at hid'
  obtain rfl := Out.ok.inj hid'
  have htags := meaningful_tags k hm
  rw [Option.map_eq_none_iff, fillLoop_none keyid _ ps [p] _ _ _ _ (first_pointers hp) (by simp) ?_ ?_ hl, hps]
  · constructor
    · rintro ⟨a, q, b, s, rfl, h1, h2, h3⟩
      exact ⟨p :: a, q, b, s, rfl, h1, h2, h3⟩
    · rintro ⟨a, q, b, s, he, h1, h2, h3⟩
      cases a with
      | nil =>
        obtain ⟨rfl, -⟩ := List.cons.inj he
        rw [hp] at h1; cases h1
      | cons x a =>
        rw [List.cons_append] at he
        obtain ⟨rfl, he'⟩ := List.cons.inj he
        exact ⟨a, q, b, s, he', h1, h2, h3⟩
  · intro k hk
    rw [← Option.some.inj hk, hp]
    simp [Body.keyPart]
  · intro q hq
    exact ⟨h5 q hq, htags q (by rw [hps]; simp [hq])⟩

/-! ## What goes wrong -/

theorem fillSig_silent {cr : Crypto} {rawE : E → Bytes} {t : Tag5} {pass : Bytes} {draws : List Nat} (ht : t.key.pka ∉ [1, 2, 17]) (body : Body E) (key user : Option (Body E))
    (s s' : Tag2 E) (h : fillSig cr rawE draws pass body t key user s = .ok (some s')) : s'.mpi = s.mpi := by
  have made : ∀ (input : Out Bytes), (do let d ← digestOf cr s input; let s ← refinish cr draws t pass s d; return some s : Out (Option (Tag2 E))) = .ok (some s') → s'.mpi = s.mpi := by
    intro input h
    obtain ⟨d, -, h⟩ := Out.bind_eq_ok.mp h
    obtain ⟨x, hx, h⟩ := Out.bind_eq_ok.mp h
    obtain rfl := Option.some.inj (Out.ok.inj h)
    rw [refinish] at hx
    obtain ⟨l, -, hx⟩ := Out.bind_eq_ok.mp hx
    obtain ⟨pri, -, hx⟩ := Out.bind_eq_ok.mp hx
    obtain ⟨v, hv, hx⟩ := Out.bind_eq_ok.mp hx
    obtain rfl := Out.ok.inj hx
    simp only [List.mem_cons, List.not_mem_nil, or_false, not_or] at ht
    rw [signPka, if_neg (by tauto), if_neg ht.2.2] at hv
    obtain rfl := Out.ok.inj hv
    rfl
  have kept : ∀ x : Tag2 E, Out.ok (some x) = .ok (some s') → s'.mpi = x.mpi := fun x h => by rw [Option.some.inj (Out.ok.inj h)]
  unfold fillSig at h
  split at h
  · split at h
    · split at h
      · exact kept _ h
      · exact made _ h
    · cases h
    · cases h
  · split at h
    · split at h
      · exact made _ h
      · cases h
      · cases h
    · split at h
      · exact made _ h
      · split at h
        · split at h
          · exact made _ h
          · exact kept _ h
        · split at h
          · split at h
            · exact made _ h
            · exact kept _ h
          · cases h

/-- **Failure: true although nothing was signed.** With a primary key that cannot sign (all algorithms but RSA, RSA encrypt only and DSA, so also RSA sign only), `fill_key_sigs` can return
true, and no signature has got any values. -/
theorem C64_silent_fails (cr : Crypto) (rawE : E → Bytes) (draws : Nat → List Nat) (k : KeyObj E) (hk : k.kind = .sec) (pass : Bytes) (p : Pkt E) (t : Tag5)
    (hp : k.packets.head? = some p) (ht : p.body = .secretKey t) (hpka : t.key.pka ∉ [1, 2, 17]) (k' : KeyObj E) (h : fillKeySigs cr rawE draws k pass = .ok (some k')) :
    ∀ a q b, k.packets = a ++ q :: b → ∃ q', k'.packets[a.length]? = some q' ∧ (q = q' ∨ ∃ s s' : Tag2 E, q.body = .sig s ∧ q'.body = .sig s' ∧ s'.mpi = s.mpi) := by
  obtain ⟨-, -, -, -, h⟩ := fillKeySigs_ok hk hp ht (fun _ _ q q' => q = q' ∨ ∃ s s' : Tag2 E, q.body = .sig s ∧ q'.body = .sig s' ∧ s'.mpi = s.mpi)
    (fun _ _ _ _ => .inl rfl) (fun _ _ _ _ _ p s s' _ _ hs _ h => .inr ⟨s, s', hs, rfl, fillSig_silent hpka _ _ _ _ _ h⟩) h
  exact h

theorem signPka_nil {draws : List Nat} {digest : Bytes} {pka hash : UInt8} {pub v : List Nat} (hpka : pka ∈ [1, 2, 17]) : signPka draws digest pka [] pub hash ≠ .ok v := by
  intro h
  simp only [List.mem_cons, List.not_mem_nil, or_false] at hpka
  rw [signPka] at h
  split at h
  · obtain ⟨n, -, h⟩ := Out.bind_eq_ok.mp h
    obtain ⟨em, -, h⟩ := Out.bind_eq_ok.mp h
    obtain ⟨s, hs, -⟩ := Out.bind_eq_ok.mp h
    rw [rsaSign] at hs
    obtain ⟨m, -, hs⟩ := Out.bind_eq_ok.mp hs
    rw [rsaDecrypt] at hs
    obtain ⟨x, hx, -⟩ := Out.bind_eq_ok.mp hs
    cases hx
  · rw [if_pos (by tauto), dsaSign] at h
    obtain ⟨m, -, h⟩ := Out.bind_eq_ok.mp h
    rw [dsaSignInt] at h
    obtain ⟨p, -, h⟩ := Out.bind_eq_ok.mp h
    obtain ⟨q, -, h⟩ := Out.bind_eq_ok.mp h
    obtain ⟨g, -, h⟩ := Out.bind_eq_ok.mp h
    obtain ⟨x, hx, -⟩ := Out.bind_eq_ok.mp h
    cases hx

/-- **Failure: a wrong passphrase.** If the passphrase does not open the primary key, `fill_key_sigs` does not return true, nor report that: it never comes back from the first signature
that names the key (it reads outside the empty list of values), unless there is no such signature with something to sign. -/
theorem C64_passphrase_ub (cr : Crypto) (rawE : E → Bytes) (draws : Nat → List Nat) (k : KeyObj E) (hk : k.kind = .sec) (pass : Bytes) (p : Pkt E) (t : Tag5)
    (hp : k.packets.head? = some p) (ht : p.body = .secretKey t) (hpka : t.key.pka ∈ [1, 2, 17]) (hopen : t.decryptSecretKeys cr pass = .ok []) (k' : KeyObj E)
    (h : fillKeySigs cr rawE draws k pass = .ok (some k')) :
    ∃ keyid, k.keyid cr = .ok keyid ∧ ∀ a q b s, k.packets = a ++ q :: b → q.body = .sig s → s.getKeyid = .ok keyid →
      s.type ∈ [0x10, 0x11, 0x12, 0x13, 0x30] ∧ ∀ q, Behind a q → ¬ (q.body.tag = 13 ∨ q.body.tag = 17) := by
  suffices hown : ∀ keyid before key user draws (p : Pkt E) (s s' : Tag2 E), Pointers t before key user → key ≠ none → p.body = .sig s → s.getKeyid = .ok keyid →
      fillSig cr rawE draws pass (.secretKey t) t key user s = .ok (some s') → ∀ s, p.body = .sig s → s.getKeyid = .ok keyid →
      s.type ∈ [0x10, 0x11, 0x12, 0x13, 0x30] ∧ ∀ q, Behind before q → ¬ (q.body.tag = 13 ∨ q.body.tag = 17) by
    obtain ⟨-, -, keyid, hid, h⟩ := fillKeySigs_ok hk hp ht (fun keyid before q _ => ∀ s, q.body = .sig s → s.getKeyid = .ok keyid →
      s.type ∈ [0x10, 0x11, 0x12, 0x13, 0x30] ∧ ∀ q, Behind before q → ¬ (q.body.tag = 13 ∨ q.body.tag = 17)) (fun keyid before p h s hs hk => absurd hk (h s hs)) hown h
    refine ⟨keyid, hid, fun a q b s he hs hk => ?_⟩
    obtain ⟨q', -, h⟩ := h a q b he
    exact h s hs hk
  · intro keyid before key user draws p s s' hptr hsome hs hk h s2 hs2 _
    rw [hs] at hs2
    obtain rfl := Body.sig.inj hs2
    have made : ∀ (input : Out Bytes), (do let d ← digestOf cr s input; let s ← refinish cr draws t pass s d; return some s : Out (Option (Tag2 E))) ≠ .ok (some s') := by
      intro input h
      obtain ⟨d, -, h⟩ := Out.bind_eq_ok.mp h
      obtain ⟨x, hx, -⟩ := Out.bind_eq_ok.mp h
      rw [refinish] at hx
      obtain ⟨l, -, hx⟩ := Out.bind_eq_ok.mp hx
      obtain ⟨pri, hpri, hx⟩ := Out.bind_eq_ok.mp hx
      obtain ⟨v, hv, -⟩ := Out.bind_eq_ok.mp hx
      rw [hopen] at hpri
      obtain rfl := Out.ok.inj hpri
      exact signPka_nil hpka hv
    unfold fillSig at h
    split at h
    · rename_i hc
      split at h
      · split at h
        · exact ⟨by simp only [isCertification, Bool.or_eq_true, beq_iff_eq] at hc; simp only [List.mem_cons, List.not_mem_nil, or_false]; tauto, hptr.user_none rfl⟩
        · exact absurd h (made _)
      · cases h
      · cases h
    · split at h
      · split at h
        · exact absurd h (made _)
        · cases h
        · cases h
      · split at h
        · exact absurd h (made _)
        · split at h
          · split at h
            · exact absurd h (made _)
            · exact absurd rfl hsome
          · split at h
            · rename_i h30
              split at h
              · exact absurd h (made _)
              · exact ⟨by simp [h30], hptr.user_none rfl⟩
            · cases h

/-! ## Examples -/

/-- Filling in the signatures of a generated key with the nonces it was generated with changes nothing: it has two user IDs and two subkeys. -/
example : (do
    let k ← generateKey c43Crypto noE (c45Config []) 7 c45Rand [[3, 4, 5], [3, 4, 5]] c45Subs
    let r ← fillKeySigs c43Crypto noE (fun _ => [3, 4, 5]) k []
    return (k.packets.length, match r with | some k' => decide (k.packets.map (·.body.tag) = k'.packets.map (·.body.tag)) | none => false) : Out (Nat × Bool)) = .ok (9, true) := by
  decide +kernel

/-- A key without passphrase, whose key ID is 0102030405060708. -/
def c64Key (pka : UInt8) (secret : Bytes) : KeyObj Empty :=
  ⟨.sec, [⟨.new, false, .secretKey ⟨⟨3, 7, pka, [2 ^ 600 + 0x0102030405060708, 17], 0⟩, 0, 0, none, [], secret⟩⟩, ⟨.new, false, .userId [97]⟩, ⟨.new, false, .sig (c63Sig 0x13)⟩]⟩

/-- RSA sign only: true, and nothing is signed. -/
example : (match fillKeySigs demoCrypto noE (fun _ => []) (c64Key 3 [0, 1, 1, 0, 2]) [] with
    | .ok (some k) => k.packets.map (fun p => match p.body with | .sig s => (s.mpi, s.left16 == (c63Sig 0x13).left16) | _ => ([], true))
    | _ => []) = [([], true), ([], true), ((c63Sig 0x13).mpi, false)] := by
  decide +kernel

/-- A wrong checksum, as behind a wrong passphrase. -/
example : fillKeySigs demoCrypto noE (fun _ => []) (c64Key 1 [0, 1, 1, 0, 3]) [] = .ub ∧
    (⟨⟨3, 7, 1, [2 ^ 600 + 0x0102030405060708, 17], 0⟩, 0, 0, none, [], [0, 1, 1, 0, 3]⟩ : Tag5).decryptSecretKeys demoCrypto [] = .ok [] := by
  decide +kernel

/-- A certification behind a subkey: false. -/
example : fillKeySigs demoCrypto noE (fun _ => []) ⟨.sec, (c64Key 3 [0, 1, 1, 0, 2]).packets.map (fun p => match p.body with | .secretKey t => { p with body := .secretKey { t with key := { t.key with version := 2 } } } | _ => p) ++
    [⟨.new, false, .secretSubkey ⟨⟨3, 7, 1, [3, 17], 0⟩, 0, 0, none, [], []⟩⟩, ⟨.new, false, .sig (c63Sig 0x18)⟩, ⟨.new, false, .sig (c63Sig 0x13)⟩]⟩ [] = .ok none := by
  decide +kernel

end OpenPGP
