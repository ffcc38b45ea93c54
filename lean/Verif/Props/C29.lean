import Verif.Model.Message
import Verif.Spec.MessageGrammar
import Mathlib.Logic.Relation

/-!
# C29: the message structure check is the RFC 4880 grammar
-/
namespace OpenPGP
open Rfc

/-- The grammar symbol each token stands for: a nonterminal or one packet. -/
def Token.gen : Token → List Nat → Prop
  | .openMessage => Derives .message
  | .encryptedMessage => Derives .encrypted
  | .signedMessage => Derives .signed
  | .compressedMessage => Derives .compressed
  | .literalMessage => Derives .literal
  | .esk => Derives .esk
  | .eskSequence => Derives .eskSeq
  | .encryptedData => Derives .encData
  | .onePassSignedMessage => Derives .onePass
  | .cdp => (· = [8])
  | .ldp => (· = [11])
  | .pkeskp => (· = [1])
  | .skeskp => (· = [3])
  | .sedp => (· = [9])
  | .seipdp => (· = [18])
  | .opsp => (· = [4])
  | .sp => (· = [2])

inductive GenList : List Token → List Nat → Prop
  | nil : GenList [] []
  | cons {t s v w} : t.gen v → GenList s w → GenList (t :: s) (v ++ w)

theorem genList_cons {t : Token} {s : List Token} {w : List Nat} (h : GenList (t :: s) w) :
    ∃ v w', w = v ++ w' ∧ t.gen v ∧ GenList s w' := by
  cases h with
  | cons h1 h2 => exact ⟨_, _, rfl, h1, h2⟩

theorem unary_sound {t t' : Token} (h : t.unary = some t') {v : List Nat} (hv : t.gen v) : t'.gen v := by
  cases t <;> simp only [Token.unary, reduceCtorEq, Option.some.injEq] at h <;> subst h <;> simp only [Token.gen] at hv ⊢
  · exact .msgEncrypted hv
  · exact .msgSigned hv
  · exact .msgCompressed hv
  · exact .msgLiteral hv
  · exact .eskFirst hv
  · exact .encData hv
  · exact .signedOnePass hv
  · subst hv; exact .compressed
  · subst hv; exact .literal
  · subst hv; exact .eskPublic
  · subst hv; exact .eskSymmetric
  · subst hv; exact .dataPlain
  · subst hv; exact .dataProtected

/-- What may be assumed about reading at the end of the list: it does not make a rule apply. -/
def harmless (atEnd : Out (Option (List Token))) : Prop := atEnd = .ub ∨ atEnd = .ok none

theorem harmless_not {atEnd : Out (Option (List Token))} (h : harmless atEnd) {l : List Token} : atEnd ≠ .ok (some l) := by
  rcases h with rfl | rfl <;> simp

/-- One reduction is one grammar rule, read backwards. -/
theorem reduceAt_sound {ae : Out (Option (List Token))} (hae : harmless ae) {t : Token} {rest l : List Token}
    (h : Token.reduceAt ae t rest = .ok (some l)) {w : List Nat} (hw : GenList (t :: rest) w) : GenList l w := by
  obtain ⟨v, w', rfl, hv, hr⟩ := genList_cons hw
  unfold Token.reduceAt at h
  split at h
  · rename_i t' ht
    cases h
    exact .cons (unary_sound ht hv) hr
  · rename_i ht
    split at h
    · split at h
      · exact absurd h (harmless_not hae)
      · cases h
        obtain ⟨v2, w2, rfl, hv2, hr2⟩ := genList_cons hr
        rw [← List.append_assoc]
        exact .cons (Derives.eskNext hv hv2) hr2
      · cases h
        obtain ⟨v2, w2, rfl, hv2, hr2⟩ := genList_cons hr
        rw [← List.append_assoc]
        exact .cons (Derives.encKeys hv hv2) hr2
      · cases h
    · split at h
      · exact absurd h (harmless_not hae)
      · exact absurd h (harmless_not hae)
      · cases h
        obtain ⟨v2, w2, rfl, hv2, hr2⟩ := genList_cons hr
        obtain ⟨v3, w3, rfl, hv3, hr3⟩ := genList_cons hr2
        rw [show v = [4] from hv, show v3 = [2] from hv3, ← List.append_assoc, ← List.append_assoc]
        exact .cons (Derives.onePass hv2) hr3
      · cases h
    · split at h
      · exact absurd h (harmless_not hae)
      · cases h
        obtain ⟨v2, w2, rfl, hv2, hr2⟩ := genList_cons hr
        rw [show v = [2] from hv, ← List.append_assoc]
        exact .cons (Derives.signedPrefix hv2) hr2
      · cases h
    · cases h

theorem reduceOnce_sound {ae : Out (Option (List Token))} (hae : harmless ae) {s l : List Token}
    (h : Token.reduceOnce ae s = .ok (some l)) {w : List Nat} (hw : GenList s w) : GenList l w := by
  induction s generalizing l w with
  | nil => simp [Token.reduceOnce] at h
  | cons t rest ih =>
    rw [Token.reduceOnce] at h
    split at h
    · rename_i l' hl; cases h; exact reduceAt_sound hae hl hw
    · cases hr : Token.reduceOnce ae rest with
      | ok o =>
        rw [hr] at h
        cases o with
        | none => simp at h
        | some r =>
          simp only [Out.map_ok, Option.map_some, Out.ok.injEq, Option.some.injEq] at h
          subst h
          obtain ⟨v, w', rfl, hv, hrest⟩ := genList_cons hw
          exact .cons hv (ih hr hrest)
      | throw => rw [hr] at h; simp at h
      | ub => rw [hr] at h; simp at h
      | diverge => rw [hr] at h; simp at h
    · cases h
    · cases h
    · cases h

theorem matchLoop_sound {ae : Out (Option (List Token))} (hae : harmless ae) {token : Token} : ∀ {fuel : Nat} {s : List Token},
    Token.matchLoop ae token fuel s = .ok true → ∀ {w : List Nat}, GenList s w → token.gen w := by
  intro fuel
  induction fuel with
  | zero => intro s h; simp [Token.matchLoop] at h
  | succ fuel ih =>
    intro s h w hw
    rw [Token.matchLoop] at h
    split at h
    · rename_i hs
      subst hs
      obtain ⟨v, w', rfl, hv, hr⟩ := genList_cons hw
      cases hr
      simpa using hv
    · split at h
      · rename_i s' hs'; exact ih h (reduceOnce_sound hae hs' hw)
      · simp at h
      · cases h
      · cases h
      · cases h

theorem genList_ofTags {tags : List Nat} {s : List Token} (h : Token.ofTags tags = some s) : GenList s tags := by
  induction tags generalizing s with
  | nil => cases h; exact .nil
  | cons t ts ih =>
    rw [Token.ofTags] at h
    split at h
    · rename_i k ks hk hks
      cases h
      refine GenList.cons (v := [t]) ?_ (ih hks)
      unfold Token.ofTag at hk
      split at hk <;> simp only [reduceCtorEq, Option.some.injEq] at hk <;> subst hk <;> rfl
    · cases h

/-! ## Completeness -/

/-- A sequence of reductions. -/
def Steps (ae : Out (Option (List Token))) : List Token → List Token → Prop :=
  Relation.ReflTransGen (fun a b => Token.reduceOnce ae a = .ok (some b))

/-- Signature and one-pass packets in front of an unfinished message are left alone. -/
theorem reduceOnce_pre (ae : Out (Option (List Token))) {pre : List Token} (hpre : ∀ p ∈ pre, p = .sp ∨ p = .opsp) {t : Token}
    {r d : List Token} (ht : t ≠ .openMessage) (h : Token.reduceOnce ae (t :: r) = .ok (some d)) :
    Token.reduceOnce ae (pre ++ t :: r) = .ok (some (pre ++ d)) := by
  induction pre with
  | nil => exact h
  | cons p pre ih =>
    have ih := ih fun q hq => hpre q (by simp [hq])
    obtain ⟨x, xs, hx, hxo⟩ : ∃ x xs, pre ++ t :: r = x :: xs ∧ x ≠ .openMessage := by
      cases pre with
      | nil => exact ⟨t, r, rfl, ht⟩
      | cons q pre =>
        refine ⟨q, _, rfl, ?_⟩
        rcases hpre q (by simp) with rfl | rfl <;> simp
    have hp : Token.reduceAt ae p (x :: xs) = .ok none := by
      rcases hpre p (by simp) with rfl | rfl
      · cases x <;> first | rfl | exact absurd rfl hxo
      · cases x <;> first | rfl | exact absurd rfl hxo
    rw [List.cons_append, Token.reduceOnce, hx, hp]
    dsimp only
    rw [← hx, ih]
    rfl

theorem step_pre (ae : Out (Option (List Token))) {pre : List Token} (hpre : ∀ p ∈ pre, p = .sp ∨ p = .opsp) {t : Token}
    {r d : List Token} (ht : t ≠ .openMessage) (h : Token.reduceOnce ae (t :: r) = .ok (some d)) :
    Steps ae (pre ++ t :: r) (pre ++ d) := Relation.ReflTransGen.single (reduceOnce_pre ae hpre ht h)

/-- The token a nonterminal is reduced to. -/
def ntTok : NT → Token
  | .message => .openMessage | .encrypted => .encryptedMessage | .signed => .signedMessage
  | .compressed => .compressedMessage | .literal => .literalMessage | .esk => .esk | .eskSeq => .eskSequence
  | .encData => .encryptedData | .onePass => .onePassSignedMessage

theorem ofTags_append {a b : List Nat} {s t : List Token} (ha : Token.ofTags a = some s) (hb : Token.ofTags b = some t) :
    Token.ofTags (a ++ b) = some (s ++ t) := by
  induction a generalizing s with
  | nil => cases ha; exact hb
  | cons x a ih =>
    rw [Token.ofTags] at ha
    split at ha
    · rename_i k ks hk hks
      cases ha
      rw [List.cons_append, Token.ofTags, hk, ih hks]; rfl
    · cases ha

/-- Behind signature and one-pass packets, and whatever follows, a derivable sequence is reduced to its symbol. Session
keys and encrypted data are single packets (they are reduced together with their neighbours). -/
def Reduces (ae : Out (Option (List Token))) (X : NT) (w : List Nat) : Prop :=
  match X with
  | .esk => w = [1] ∨ w = [3]
  | .encData => w = [9] ∨ w = [18]
  | X => ∃ s, Token.ofTags w = some s ∧ ∀ pre suf, (∀ p ∈ pre, p = .sp ∨ p = .opsp) →
      Steps ae (pre ++ (s ++ suf)) (pre ++ ntTok X :: suf)

theorem reduces_of_derives (ae : Out (Option (List Token))) {X : NT} {w : List Nat} (h : Derives X w) : Reduces ae X w := by
  induction h with
  | msgEncrypted _ ih | msgSigned _ ih | msgCompressed _ ih | msgLiteral _ ih =>
    obtain ⟨s, hs, h⟩ := ih
    refine ⟨s, hs, fun pre suf hpre => (h pre suf hpre).trans (step_pre ae hpre (by simp [ntTok]) rfl)⟩
  | compressed | literal => exact ⟨_, rfl, fun pre suf hpre => step_pre ae hpre (by simp) rfl⟩
  | eskPublic => exact Or.inl rfl
  | eskSymmetric => exact Or.inr rfl
  | eskFirst _ ih =>
    rcases ih with rfl | rfl
    · exact ⟨_, rfl, fun pre suf hpre => (step_pre ae (t := .pkeskp) hpre (by simp) rfl).trans
        (step_pre ae (t := .esk) hpre (by simp) rfl)⟩
    · exact ⟨_, rfl, fun pre suf hpre => (step_pre ae (t := .skeskp) hpre (by simp) rfl).trans
        (step_pre ae (t := .esk) hpre (by simp) rfl)⟩
  | eskNext _ _ ih1 ih2 =>
    obtain ⟨s, hs, h⟩ := ih1
    rcases ih2 with rfl | rfl
    · refine ⟨s ++ [.pkeskp], ofTags_append hs rfl, fun pre suf hpre => ?_⟩
      have h1 := h pre (.pkeskp :: suf) hpre
      have h2 := step_pre ae (t := .eskSequence) (r := .pkeskp :: suf) (d := .eskSequence :: .esk :: suf) hpre (by simp) rfl
      have h3 := step_pre ae (t := .eskSequence) (r := .esk :: suf) (d := .eskSequence :: suf) hpre (by simp) rfl
      simpa [ntTok, Steps] using (h1.trans h2).trans h3
    · refine ⟨s ++ [.skeskp], ofTags_append hs rfl, fun pre suf hpre => ?_⟩
      have h1 := h pre (.skeskp :: suf) hpre
      have h2 := step_pre ae (t := .eskSequence) (r := .skeskp :: suf) (d := .eskSequence :: .esk :: suf) hpre (by simp) rfl
      have h3 := step_pre ae (t := .eskSequence) (r := .esk :: suf) (d := .eskSequence :: suf) hpre (by simp) rfl
      simpa [ntTok, Steps] using (h1.trans h2).trans h3
  | dataPlain => exact Or.inl rfl
  | dataProtected => exact Or.inr rfl
  | encData _ ih =>
    rcases ih with rfl | rfl
    · exact ⟨_, rfl, fun pre suf hpre => (step_pre ae (t := .sedp) hpre (by simp) rfl).trans
        (step_pre ae (t := .encryptedData) hpre (by simp) rfl)⟩
    · exact ⟨_, rfl, fun pre suf hpre => (step_pre ae (t := .seipdp) hpre (by simp) rfl).trans
        (step_pre ae (t := .encryptedData) hpre (by simp) rfl)⟩
  | encKeys _ _ ih1 ih2 =>
    obtain ⟨s, hs, h⟩ := ih1
    rcases ih2 with rfl | rfl
    · refine ⟨s ++ [.sedp], ofTags_append hs rfl, fun pre suf hpre => ?_⟩
      have h1 := h pre (.sedp :: suf) hpre
      have h2 := step_pre ae (t := .eskSequence) (r := .sedp :: suf) (d := .eskSequence :: .encryptedData :: suf) hpre
        (by simp) rfl
      have h3 := step_pre ae (t := .eskSequence) (r := .encryptedData :: suf) (d := .encryptedMessage :: suf) hpre
        (by simp) rfl
      simpa [ntTok, Steps] using (h1.trans h2).trans h3
    · refine ⟨s ++ [.seipdp], ofTags_append hs rfl, fun pre suf hpre => ?_⟩
      have h1 := h pre (.seipdp :: suf) hpre
      have h2 := step_pre ae (t := .eskSequence) (r := .seipdp :: suf) (d := .eskSequence :: .encryptedData :: suf) hpre
        (by simp) rfl
      have h3 := step_pre ae (t := .eskSequence) (r := .encryptedData :: suf) (d := .encryptedMessage :: suf) hpre
        (by simp) rfl
      simpa [ntTok, Steps] using (h1.trans h2).trans h3
  | onePass _ ih =>
    obtain ⟨s, hs, h⟩ := ih
    refine ⟨[.opsp] ++ s ++ [.sp], ofTags_append (ofTags_append rfl hs) rfl, fun pre suf hpre => ?_⟩
    have h1 := h (pre ++ [.opsp]) (.sp :: suf) (by
      intro p hp
      rcases List.mem_append.mp hp with hp | hp
      · exact hpre p hp
      · right; simpa using hp)
    have h2 := step_pre ae (t := .opsp) (r := .openMessage :: .sp :: suf) (d := .onePassSignedMessage :: suf) hpre
      (by simp) rfl
    simp only [ntTok, List.append_assoc, List.cons_append, List.nil_append] at h1 h2 ⊢
    exact h1.trans h2
  | signedPrefix _ ih =>
    obtain ⟨s, hs, h⟩ := ih
    refine ⟨[.sp] ++ s, ofTags_append rfl hs, fun pre suf hpre => ?_⟩
    have h1 := h (pre ++ [.sp]) suf (by
      intro p hp
      rcases List.mem_append.mp hp with hp | hp
      · exact hpre p hp
      · left; simpa using hp)
    have h2 := step_pre ae (t := .sp) (r := .openMessage :: suf) (d := .signedMessage :: suf) hpre
      (by simp) rfl
    simp only [ntTok, List.append_assoc, List.cons_append, List.nil_append] at h1 h2 ⊢
    exact h1.trans h2
  | signedOnePass _ ih =>
    obtain ⟨s, hs, h⟩ := ih
    refine ⟨s, hs, fun pre suf hpre => (h pre suf hpre).trans (step_pre ae hpre (by simp [ntTok]) rfl)⟩

/-! ## Termination -/

/-- A weight every reduction lowers. -/
def Token.weight : Token → Nat
  | .openMessage | .eskSequence => 1
  | .encryptedMessage | .signedMessage | .compressedMessage | .literalMessage | .esk | .sp | .opsp => 2
  | .encryptedData | .onePassSignedMessage | .cdp | .ldp | .pkeskp | .skeskp => 3
  | .sedp | .seipdp => 4

def weight (s : List Token) : Nat := (s.map Token.weight).sum

theorem weight_le (s : List Token) : weight s ≤ 4 * s.length := by
  induction s with
  | nil => rfl
  | cons t s ih =>
    have : t.weight ≤ 4 := by cases t <;> decide
    simp only [weight, List.map_cons, List.sum_cons, List.length_cons] at ih ⊢
    omega

theorem reduceAt_weight {ae : Out (Option (List Token))} (hae : harmless ae) {t : Token} {rest l : List Token}
    (h : Token.reduceAt ae t rest = .ok (some l)) : weight l < weight (t :: rest) := by
  unfold Token.reduceAt at h
  split at h
  · rename_i t' ht
    cases h
    have : t'.weight < t.weight := by
      cases t <;> simp only [Token.unary, reduceCtorEq, Option.some.injEq] at ht <;> subst ht <;> decide
    simp only [weight, List.map_cons, List.sum_cons]
    omega
  · split at h
    · split at h
      · exact absurd h (harmless_not hae)
      · cases h; simp [weight, Token.weight]
      · cases h; simp [weight, Token.weight]; omega
      · cases h
    · split at h
      · exact absurd h (harmless_not hae)
      · exact absurd h (harmless_not hae)
      · cases h; simp [weight, Token.weight]; omega
      · cases h
    · split at h
      · exact absurd h (harmless_not hae)
      · cases h; simp [weight, Token.weight]
      · cases h
    · cases h

theorem reduceOnce_weight {ae : Out (Option (List Token))} (hae : harmless ae) {s l : List Token}
    (h : Token.reduceOnce ae s = .ok (some l)) : weight l < weight s := by
  induction s generalizing l with
  | nil => simp [Token.reduceOnce] at h
  | cons t rest ih =>
    rw [Token.reduceOnce] at h
    split at h
    · rename_i l' hl; cases h; exact reduceAt_weight hae hl
    · cases hr : Token.reduceOnce ae rest with
      | ok o =>
        rw [hr] at h
        cases o with
        | none => simp at h
        | some r =>
          simp only [Out.map_ok, Option.map_some, Out.ok.injEq, Option.some.injEq] at h
          subst h
          have := ih hr
          simp only [weight, List.map_cons, List.sum_cons] at this ⊢
          omega
      | throw => rw [hr] at h; simp at h
      | ub => rw [hr] at h; simp at h
      | diverge => rw [hr] at h; simp at h
    · cases h
    · cases h
    · cases h

/-- No reduction throws or runs for ever. -/
theorem reduceOnce_cases {ae : Out (Option (List Token))} (hae : harmless ae) (s : List Token) :
    (∃ o, Token.reduceOnce ae s = .ok o) ∨ Token.reduceOnce ae s = .ub ∧ ae = .ub := by
  induction s with
  | nil => exact Or.inl ⟨none, rfl⟩
  | cons t rest ih =>
    have hat : (∃ o, Token.reduceAt ae t rest = .ok o) ∨ Token.reduceAt ae t rest = .ub ∧ ae = .ub := by
      have hend : (∃ o, ae = .ok o) ∨ ae = .ub ∧ ae = .ub := by
        rcases hae with h | h
        · exact Or.inr ⟨h, h⟩
        · exact Or.inl ⟨_, h⟩
      unfold Token.reduceAt
      split
      · exact Or.inl ⟨_, rfl⟩
      · split
        · split <;> first | exact hend | exact Or.inl ⟨_, rfl⟩
        · split <;> first | exact hend | exact Or.inl ⟨_, rfl⟩
        · split <;> first | exact hend | exact Or.inl ⟨_, rfl⟩
        · exact Or.inl ⟨_, rfl⟩
    rw [Token.reduceOnce]
    rcases hat with ⟨o, ho⟩ | ⟨ho, he⟩
    · rw [ho]
      cases o with
      | some l => exact Or.inl ⟨_, rfl⟩
      | none =>
        dsimp only
        rcases ih with ⟨o, ho⟩ | ⟨ho, he⟩
        · rw [ho]; exact Or.inl ⟨_, rfl⟩
        · rw [ho]; exact Or.inr ⟨rfl, he⟩
    · rw [ho]; exact Or.inr ⟨rfl, he⟩

theorem matchLoop_cases {ae : Out (Option (List Token))} (hae : harmless ae) (token : Token) : ∀ (fuel : Nat) (s : List Token),
    weight s < fuel →
    (∃ b, Token.matchLoop ae token fuel s = .ok b) ∨ Token.matchLoop ae token fuel s = .ub ∧ ae = .ub := by
  intro fuel
  induction fuel with
  | zero => intro s h; omega
  | succ fuel ih =>
    intro s h
    rw [Token.matchLoop]
    split
    · exact Or.inl ⟨_, rfl⟩
    · rcases reduceOnce_cases hae s with ⟨o, ho⟩ | ⟨ho, he⟩
      · rw [ho]
        cases o with
        | none => exact Or.inl ⟨_, rfl⟩
        | some l =>
          have := reduceOnce_weight hae ho
          exact ih l (by omega)
      · rw [ho]; exact Or.inr ⟨rfl, he⟩

theorem matchLoop_complete {ae : Out (Option (List Token))} (hae : harmless ae) {token : Token} {s : List Token}
    (h : Steps ae s [token]) : ∀ {fuel : Nat}, weight s < fuel → Token.matchLoop ae token fuel s = .ok true := by
  induction h using Relation.ReflTransGen.head_induction_on with
  | refl =>
    intro fuel hf
    cases fuel with
    | zero => omega
    | succ fuel => rw [Token.matchLoop, if_pos rfl]
  | head h1 _ ih =>
    intro fuel hf
    cases fuel with
    | zero => omega
    | succ fuel =>
      rw [Token.matchLoop]
      split
      · rfl
      · rw [h1]
        have := reduceOnce_weight hae h1
        exact ih (by omega)

/-- The five nonterminals `match` can be asked for. -/
def askToken : NT → Option Token
  | .message => some .openMessage
  | .encrypted => some .encryptedMessage
  | .signed => some .signedMessage
  | .compressed => some .compressedMessage
  | .literal => some .literalMessage
  | _ => none

theorem derives_ne_nil {X : NT} {w : List Nat} (h : Derives X w) : w ≠ [] := by
  induction h <;> simp_all

theorem matchTags_complete {ae : Out (Option (List Token))} (hae : harmless ae) {X : NT} {tok : Token}
    (ha : askToken X = some tok) {tags : List Nat} (h : Derives X tags) : matchTagsWith ae tags tok = .ok true := by
  have hr := reduces_of_derives ae h
  obtain ⟨s, hs, hst⟩ : ∃ s, Token.ofTags tags = some s ∧ ∀ pre suf, (∀ p ∈ pre, p = .sp ∨ p = .opsp) →
      Steps ae (pre ++ (s ++ suf)) (pre ++ tok :: suf) := by
    cases X <;> simp only [askToken, reduceCtorEq, Option.some.injEq] at ha <;> subst ha <;> exact hr
  have hask : tok.askable = true := by
    cases X <;> simp only [askToken, reduceCtorEq, Option.some.injEq] at ha <;> subst ha <;> rfl
  rw [matchTagsWith, if_neg (derives_ne_nil h), hask, hs]
  have := hst [] [] (by simp)
  simp only [List.nil_append, List.append_nil] at this
  have hw := weight_le s
  exact matchLoop_complete hae this (by omega)

theorem matchTags_sound {ae : Out (Option (List Token))} (hae : harmless ae) {tok : Token} {tags : List Nat}
    (h : matchTagsWith ae tags tok = .ok true) : tok.gen tags := by
  unfold matchTagsWith at h
  split at h
  · simp at h
  · split at h
    · simp at h
    · split at h
      · simp at h
      · rename_i s hs
        exact matchLoop_sound hae h (genList_ofTags hs)

theorem gen_ask {X : NT} {tok : Token} (ha : askToken X = some tok) : tok.gen = Derives X := by
  cases X <;> simp only [askToken, reduceCtorEq, Option.some.injEq] at ha <;> subst ha <;> rfl

/-- Every sequence derivable in the RFC 4880 grammar is accepted, without ever reading outside the token list; likewise for the
four kinds of messages that can be asked for. Sequences may be of any length and nesting. -/
theorem C29_accepts {X : NT} {tok : Token} (ha : askToken X = some tok) {tags : List Nat} (h : Derives X tags) :
    matchTags tags tok = .ok true := matchTags_complete (Or.inl rfl) ha h

/-- Only derivable sequences are accepted. -/
theorem C29_accepts_only {X : NT} {tok : Token} (ha : askToken X = some tok) {tags : List Nat}
    (h : matchTags tags tok = .ok true) : Derives X tags := by
  rw [← gen_ask ha]; exact matchTags_sound (Or.inl rfl) h

/-- `meaningful` is true exactly for OpenPGP messages. -/
theorem C29_meaningful_iff (tags : List Nat) : messageMeaningful tags = .ok true ↔ Derives .message tags :=
  ⟨C29_accepts_only (X := .message) rfl, C29_accepts (X := .message) rfl⟩

/-- The check always ends; on sequences outside the grammar it either says no or reads the element at `end()` of the token list,
which is undefined behaviour. -/
theorem C29_terminates (tags : List Nat) (tok : Token) :
    (∃ b, matchTags tags tok = .ok b) ∨ matchTags tags tok = .ub := by
  unfold matchTags matchTagsWith
  split
  · exact Or.inl ⟨_, rfl⟩
  · split
    · exact Or.inl ⟨_, rfl⟩
    · split
      · exact Or.inl ⟨_, rfl⟩
      · rename_i s _
        rcases matchLoop_cases (Or.inl rfl) tok (4 * s.length + 1) s (by have := weight_le s; omega) with h | ⟨h, _⟩
        · exact Or.inl h
        · exact Or.inr h

/-- If what is read at `end()` happens to match no rule, the check decides the grammar exactly: true for derivable sequences and
false for all others. -/
theorem C29_decides_if_end_matches_nothing {X : NT} {tok : Token} (ha : askToken X = some tok) (tags : List Nat) :
    ∃ b, matchTagsWith (.ok none) tags tok = .ok b ∧ (b = true ↔ Derives X tags) := by
  have hae : harmless (.ok none) := Or.inr rfl
  have hd : ∃ b, matchTagsWith (.ok none) tags tok = .ok b := by
    unfold matchTagsWith
    split
    · exact ⟨_, rfl⟩
    · split
      · exact ⟨_, rfl⟩
      · split
        · exact ⟨_, rfl⟩
        · rename_i s _
          rcases matchLoop_cases hae tok (4 * s.length + 1) s (by have := weight_le s; omega) with h | ⟨_, h⟩
          · exact h
          · cases h
  obtain ⟨b, hb⟩ := hd
  refine ⟨b, hb, fun h => ?_, fun h => ?_⟩
  · subst h; rw [← gen_ask ha]; exact matchTags_sound hae hb
  · have := matchTags_complete hae ha h
    rw [hb] at this; exact Out.ok.inj this

/-- The undefined reads happen on simple inputs: any number of signature packets alone (a detached signature), and any number of
signature packets in front of a session key packet without data. (With libstdc++ the element read is the list's size; for four
signatures and a session key it equals the token looked for, and `end()` itself is erased.) -/
theorem C29_signatures_ub (k : Nat) : messageMeaningful (List.replicate (k + 1) 2) = .ub ∧
    Token.matchLoop .ub .openMessage 1 (List.replicate k .sp ++ [.eskSequence]) = .ub := by
  have h2 : ∀ k, Token.ofTags (List.replicate k 2) = some (List.replicate k .sp) := by
    intro k
    induction k with
    | zero => rfl
    | succ k ih => rw [List.replicate_succ, Token.ofTags, ih]; rfl
  have h1 : ∀ k, Token.reduceOnce .ub (List.replicate (k + 1) .sp) = .ub := by
    intro k
    induction k with
    | zero => rfl
    | succ k ih =>
      rw [List.replicate_succ, Token.reduceOnce]
      have : Token.reduceAt .ub .sp (List.replicate (k + 1) .sp) = .ok none := rfl
      rw [this]
      dsimp only
      rw [ih]; rfl
  have h3 : ∀ k, Token.reduceOnce .ub (List.replicate k .sp ++ [.eskSequence]) = .ub := by
    intro k
    induction k with
    | zero => rfl
    | succ k ih =>
      rw [List.replicate_succ, List.cons_append, Token.reduceOnce]
      have : Token.reduceAt .ub .sp (List.replicate k .sp ++ [.eskSequence]) = .ok none := by
        cases k <;> rfl
      rw [this]
      dsimp only
      rw [ih]; rfl
  constructor
  · rw [messageMeaningful, matchTags, matchTagsWith, if_neg (by simp), h2]
    simp only [Token.askable, Bool.not_true, Bool.false_eq_true, if_false]
    rw [Token.matchLoop, if_neg (by rw [List.replicate_succ]; simp), h1]
  · rw [Token.matchLoop, if_neg (by cases k <;> simp [List.replicate_succ]), h3]

/-- A one-pass signed, nested message with two recipients is in the grammar and accepted. -/
example : messageMeaningful [4, 2, 4, 1, 3, 18, 2, 2] = .ok true := by decide
example : Derives .message [4, 1, 3, 18, 2] :=
  .msgSigned (.signedOnePass (.onePass (w := [1, 3, 18]) (.msgEncrypted (.encKeys (v := [1, 3]) (w := [18])
    (.eskNext (v := [1]) (w := [3]) (.eskFirst .eskPublic) .eskSymmetric) .dataProtected))))
example : messageMeaningful [11, 11] = .ok false := by decide
example : messageMeaningful [2, 2, 2, 2, 1] = .ub := by decide

end OpenPGP
