import Verif.Model.Show
import Verif.Props.C31
import Mathlib.Tactic.IntervalCases

/-!
# C62: showing what is in a packet
-/
namespace OpenPGP
variable {E : Type}

/-! ## When showing works -/

/-- A signature can be shown if it has the numbers its algorithm needs and its embedded signatures can be shown. -/
def Tag2.CanShow (canE : E → Prop) (s : Tag2 E) : Prop :=
  (isRSA s.pka = true → 1 ≤ s.mpi.length) ∧ (s.pka = 17 → 2 ≤ s.mpi.length) ∧
    (s.version = 4 → ∀ x ∈ s.hashed ++ s.unhashed, ∀ e, x.body = .embedded (some e) → canE e)

/-- The same for signatures with signatures embedded up to `n` deep. -/
def SigCanShow : (n : Nat) → SigAt n → Prop
  | 0, e => e.elim
  | n + 1, s => Tag2.CanShow (SigCanShow n) s

/-- A key can be shown if it has the numbers its version and algorithm need. -/
def KeyPkt.CanShow (k : KeyPkt) : Prop :=
  (k.version < 4 → 2 ≤ k.mpi.length) ∧ (k.version = 4 → (isRSA k.pka = true → 2 ≤ k.mpi.length) ∧ (k.pka = 16 → 3 ≤ k.mpi.length) ∧ (k.pka = 17 → 4 ≤ k.mpi.length))

/-- A secret key can be shown if its public part can, a specifier is there if it is announced, and unprotected secret numbers can be read and are not longer than the data. -/
def Tag5.CanShow (t : Tag5) : Prop :=
  t.key.CanShow ∧ (t.s2kCon > 253 → t.s2k ≠ none) ∧
    (t.s2kCon = 0 → ∃ l pos, readMPIs t.secret (if isRSA t.key.pka then 4 else if t.key.pka = 16 ∨ t.key.pka = 17 then 1 else 0) 0 = .ok (l, pos) ∧ pos ≤ t.secret.length)

/-- Packets that can be shown, given which embedded signatures and compressed contents can. -/
def Body.CanShow (canE : E → Prop) (canC : UInt8 → Bytes → Prop) : Body E → Prop
  | .pkesk t => (t.pka ≤ 3 → 1 ≤ t.mpi.length) ∧ (t.pka = 16 → 2 ≤ t.mpi.length)
  | .sig s => s.CanShow canE
  | .secretKey t => t.CanShow
  | .secretSubkey t => t.CanShow
  | .publicKey k => k.CanShow
  | .publicSubkey k => k.CanShow
  | .compressed c d => canC c d
  | .priv n _ => n < 4
  | _ => True

theorem bind_ok_iff {α β : Type} (x : Out α) (f : α → Out β) : (∃ b, (x >>= f) = .ok b) ↔ ∃ a, x = .ok a ∧ ∃ b, f a = .ok b := by
  constructor
  · rintro ⟨b, h⟩
    obtain ⟨a, ha, h⟩ := Out.bind_eq_ok.mp h
    exact ⟨a, ha, b, h⟩
  · rintro ⟨a, ha, b, h⟩
    exact ⟨b, by rw [ha]; exact h⟩

theorem vecAt_iff {α : Type} (l : List α) (i : Nat) : (∃ a, vecAt l i = .ok a) ↔ i < l.length := by
  rw [vecAt]
  by_cases h : i < l.length
  · simp [h]
  · simp [h]

theorem ok_exists {α : Type} (a : α) : (∃ b, (Out.ok a : Out α) = .ok b) ↔ True := by simp

theorem Tag1.show_iff (t : Tag1) : (∃ l, t.acts = .ok l) ↔ (t.pka ≤ 3 → 1 ≤ t.mpi.length) ∧ (t.pka = 16 → 2 ≤ t.mpi.length) := by
  rw [Tag1.acts]
  by_cases h : t.pka ≤ 3
  · have h16 : t.pka ≠ 16 := by intro e; rw [e] at h; exact absurd h (by decide)
    rw [if_pos h]
    simp only [bind_ok_iff, Out.pure_eq, ok_exists, and_true, vecAt_iff, h, forall_const, h16, false_implies]
    omega
  · rw [if_neg h]
    by_cases h16 : t.pka = 16
    · rw [if_pos h16]
      simp only [bind_ok_iff, Out.pure_eq, ok_exists, and_true, vecAt_iff, exists_and_right, h16, forall_const]
      simp
      omega
    · rw [if_neg h16]
      simp only [h, h16, Out.pure_eq, ok_exists, false_implies, and_self]

theorem Sub.show_iff (env : ShowEnv E) (showE : E → Out (List Act)) (c : Nat) (s : Sub E) :
    (∃ r, s.acts env showE c = .ok r) ↔ ∀ e, s.body = .embedded (some e) → ∃ l, showE e = .ok l := by
  obtain ⟨crit, body⟩ := s
  have ht : ∃ t, Sub.title env ⟨crit, body⟩ = .ok t := by
    rw [Sub.title]
    cases body <;> exact ⟨_, rfl⟩
  obtain ⟨t, ht⟩ := ht
  rw [Sub.acts, ht]
  simp only [Out.ok_bind]
  cases body with
  | embedded e =>
    cases e with
    | none => simp [SubBody.acts, Out.pure_eq]
    | some e => simp [SubBody.acts, Out.pure_eq, bind_ok_iff]
  | _ => simp [SubBody.acts, Out.pure_eq]

theorem subs_show_iff (env : ShowEnv E) (showE : E → Out (List Act)) (c : Nat) (l : List (Sub E)) :
    (∃ r, subsActs env showE c l = .ok r) ↔ ∀ s ∈ l, ∀ e, s.body = .embedded (some e) → ∃ l, showE e = .ok l := by
  induction l generalizing c with
  | nil => simp [subsActs]
  | cons s ss ih =>
    rw [subsActs, bind_ok_iff, List.forall_mem_cons, ← Sub.show_iff env showE c s]
    constructor
    · rintro ⟨⟨c', l⟩, h1, h2⟩
      rw [bind_ok_iff] at h2
      obtain ⟨ls, h3, -⟩ := h2
      exact ⟨⟨_, h1⟩, (ih c').mp ⟨ls, h3⟩⟩
    · rintro ⟨⟨⟨c', l⟩, h1⟩, h2⟩
      obtain ⟨ls, h3⟩ := (ih c').mpr h2
      exact ⟨⟨c', l⟩, h1, _, by simp only [h3, Out.ok_bind]; rfl⟩

theorem subList_show_iff (env : ShowEnv E) (showE : E → Out (List Act)) (t : String) (l : List (Sub E)) :
    (∃ r, subListActs env showE t l = .ok r) ↔ ∀ s ∈ l, ∀ e, s.body = .embedded (some e) → ∃ l, showE e = .ok l := by
  cases l with
  | nil => simp [subListActs]
  | cons s ss =>
    rw [subListActs]
    · rw [bind_ok_iff, ← subs_show_iff env showE 0]
      simp [Out.pure_eq]
    · simp

/-- **Signatures.** Exactly the signatures with the numbers their algorithm needs can be shown, if their embedded signatures can. -/
theorem Tag2.show_iff (env : ShowEnv E) (showE : E → Out (List Act)) (s : Tag2 E) :
    (∃ l, s.acts env showE = .ok l) ↔ s.CanShow fun e => ∃ l, showE e = .ok l := by
  rw [Tag2.acts, Tag2.CanShow, bind_ok_iff]
  have mid : ∀ (P : List Act → Prop) (Q : Prop), (∀ a, P a ↔ Q) → ∀ x : Out (List Act), (∃ a, x = .ok a ∧ P a) ↔ (∃ a, x = .ok a) ∧ Q := by
    intro P Q h x
    simp only [h, exists_and_right]
  rw [mid _ _ (fun a => (bind_ok_iff _ _).trans ((mid _ True (fun b => by simp [Out.pure_eq]) _).trans (Iff.of_eq (and_true _))))]
  have hm : (∃ a, (if isRSA s.pka = true then do
        let m ← vecAt s.mpi 0
        return [mpiLine "RSA m**d mod n" m]
      else if s.pka = 17 then do
        let r ← vecAt s.mpi 0
        let t ← vecAt s.mpi 1
        return [mpiLine "DSA r" r, mpiLine "DSA s" t]
      else Out.ok []) = Out.ok a) ↔ (isRSA s.pka = true → 1 ≤ s.mpi.length) ∧ (s.pka = 17 → 2 ≤ s.mpi.length) := by
    by_cases h : isRSA s.pka = true
    · have h17 : s.pka ≠ 17 := by intro e; rw [e] at h; exact absurd h (by decide)
      simp only [h, if_true, bind_ok_iff, Out.pure_eq, ok_exists, and_true, vecAt_iff, forall_const, h17, false_implies]
      omega
    · rw [if_neg h]
      by_cases h17 : s.pka = 17
      · rw [if_pos h17]
        have : isRSA 17 = false := by decide
        simp only [this, Bool.false_eq_true, h17, bind_ok_iff, Out.pure_eq, ok_exists, and_true, vecAt_iff, exists_and_right, forall_const, false_implies, true_and]
        omega
      · rw [if_neg h17]
        simp only [h, h17, Bool.false_eq_true, ok_exists, false_implies, and_self]
  have h1 : (∃ a, (if s.version < 4 then
      Out.ok [Act.line (ascii "Hashed Material:"), .down, Act.line (ascii "Signature Type: " ++ mapped sigNames s.type.toNat ++ ascii " (type 0x" ++ makehex s.type.toNat 2 false ++ ascii ")"),
        .line (ascii "Creation Time: " ++ env.time s.time), .line (ascii "Signer's Key ID: " ++ hexlify s.keyid), .line (pkaLine s.pka), .line (hashLine s.hash), .up]
    else if s.version = 4 then do
      let h ← subListActs env showE "Hashed Sub:" s.hashed
      let u ← subListActs env showE "Unhashed Sub:" s.unhashed
      return [Act.line (ascii "Signature Type: " ++ mapped sigNames s.type.toNat ++ ascii " (type 0x" ++ makehex s.type.toNat 2 false ++ ascii ")"), .line (pkaLine s.pka),
        .line (hashLine s.hash)] ++ h ++ u
    else Out.ok []) = Out.ok a) ↔ (s.version = 4 → ∀ x ∈ s.hashed ++ s.unhashed, ∀ e, x.body = .embedded (some e) → ∃ l, showE e = .ok l) := by
    by_cases h : s.version < 4
    · have h4 : s.version ≠ 4 := by intro e; rw [e] at h; exact absurd h (by decide)
      rw [if_pos h]
      simp only [ok_exists, h4, false_implies]
    · rw [if_neg h]
      by_cases h4 : s.version = 4
      · rw [if_pos h4]
        simp only [h4, forall_const, List.forall_mem_append]
        rw [← subList_show_iff env showE "Hashed Sub:" s.hashed, ← subList_show_iff env showE "Unhashed Sub:" s.unhashed]
        simp only [bind_ok_iff, Out.pure_eq, ok_exists, and_true, exists_and_right]
      · rw [if_neg h4]
        simp only [h4, ok_exists, false_implies]
  rw [hm, h1]
  tauto

theorem KeyPkt.show_iff (time : Nat → Bytes) (k : KeyPkt) : (∃ l, k.acts time = .ok l) ↔ k.CanShow := by
  rw [KeyPkt.acts, KeyPkt.CanShow]
  by_cases h : k.version < 4
  · have h4 : k.version ≠ 4 := by intro e; rw [e] at h; exact absurd h (by decide)
    rw [if_pos h]
    simp only [bind_ok_iff, Out.pure_eq, ok_exists, and_true, vecAt_iff, exists_and_right, h, forall_const, h4, false_implies]
    omega
  · rw [if_neg h]
    simp only [h, false_implies, true_and]
    by_cases h4 : k.version = 4
    · rw [if_pos h4]
      simp only [h4, forall_const]
      by_cases hr : isRSA k.pka = true
      · have h16 : k.pka ≠ 16 := by intro e; rw [e] at hr; exact absurd hr (by decide)
        have h17 : k.pka ≠ 17 := by intro e; rw [e] at hr; exact absurd hr (by decide)
        rw [if_pos hr]
        simp only [bind_ok_iff, Out.pure_eq, ok_exists, and_true, vecAt_iff, exists_and_right, hr, forall_const, h16, h17, false_implies]
        omega
      · rw [if_neg hr]
        simp only [hr, false_implies, true_and, Bool.false_eq_true]
        by_cases h16 : k.pka = 16
        · have h17 : k.pka ≠ 17 := by intro e; rw [e] at h16; exact absurd h16 (by decide)
          rw [if_pos h16]
          simp only [bind_ok_iff, Out.pure_eq, ok_exists, and_true, vecAt_iff, exists_and_right, h17, false_implies]
          simp only [h16, forall_const]
          omega
        · rw [if_neg h16]
          simp only [h16, false_implies, true_and]
          by_cases h17 : k.pka = 17
          · rw [if_pos h17]
            simp only [bind_ok_iff, Out.pure_eq, ok_exists, and_true, vecAt_iff, exists_and_right]
            simp only [h17, forall_const]
            omega
          · rw [if_neg h17]
            simp only [h17, Out.pure_eq, ok_exists, false_implies]
    · rw [if_neg h4]
      simp only [h4, Out.pure_eq, ok_exists, false_implies]

theorem substr_iff (d : Bytes) (p n : Nat) : (∃ r, substr d p n = .ok r) ↔ p ≤ d.length := by
  rw [substr]
  by_cases h : d.length < p
  · simp [h]
  · simp [h]; omega

theorem Tag5.private_iff (t : Tag5) : (∃ l, t.privateActs = .ok l) ↔ (t.s2kCon > 253 → t.s2k ≠ none) ∧
    (t.s2kCon = 0 → ∃ l pos, readMPIs t.secret (if isRSA t.key.pka then 4 else if t.key.pka = 16 ∨ t.key.pka = 17 then 1 else 0) 0 = .ok (l, pos) ∧ pos ≤ t.secret.length) := by
  rw [Tag5.privateActs]
  by_cases hc : t.s2kCon > 253
  · have h0 : t.s2kCon ≠ 0 := by intro e; rw [e] at hc; exact absurd hc (by decide)
    rw [if_pos hc]
    simp only [hc, forall_const, h0, false_implies, and_true, ne_eq, not_false_eq_true, if_true, Out.pure_eq]
    cases t.s2k with
    | none => simp [Bind.bind, Out.bind]
    | some s => simp
  · rw [if_neg hc]
    simp only [hc, false_implies, true_and, Out.ok_bind]
    by_cases h0 : t.s2kCon = 0
    · simp only [h0, forall_const, ne_eq, not_true_eq_false, if_false]
      by_cases hr : isRSA t.key.pka = true
      · simp only [hr, if_true, bind_ok_iff, Out.pure_eq, ok_exists, and_true, readMPIs]
        constructor
        · rintro ⟨⟨l, pos⟩, h, hs⟩
          obtain ⟨⟨d, p1⟩, h1, h⟩ := Out.bind_eq_ok.mp h
          obtain ⟨⟨p, p2⟩, h2, h⟩ := Out.bind_eq_ok.mp h
          obtain ⟨⟨q, p3⟩, h3, h⟩ := Out.bind_eq_ok.mp h
          obtain ⟨⟨u, p4⟩, h4, h⟩ := Out.bind_eq_ok.mp h
          obtain ⟨rfl, rfl⟩ := Prod.mk.inj (Out.ok.inj h)
          refine ⟨[d, p, q, u], p4, by simp only [h1, h2, h3, h4, Out.ok_bind], (substr_iff _ _ _).mp hs⟩
        · rintro ⟨l, pos, h, hs⟩
          obtain ⟨⟨d, p1⟩, h1, h⟩ := Out.bind_eq_ok.mp h
          obtain ⟨⟨l1, p1'⟩, h, e⟩ := Out.bind_eq_ok.mp h
          obtain ⟨⟨p, p2⟩, h2, h⟩ := Out.bind_eq_ok.mp h
          obtain ⟨⟨l2, p2'⟩, h, e2⟩ := Out.bind_eq_ok.mp h
          obtain ⟨⟨q, p3⟩, h3, h⟩ := Out.bind_eq_ok.mp h
          obtain ⟨⟨l3, p3'⟩, h, e3⟩ := Out.bind_eq_ok.mp h
          obtain ⟨⟨u, p4⟩, h4, h⟩ := Out.bind_eq_ok.mp h
          simp only [Out.ok_bind, Out.ok.injEq, Prod.mk.injEq] at h e e2 e3
          obtain ⟨-, rfl⟩ := h
          obtain ⟨-, rfl⟩ := e3
          obtain ⟨-, rfl⟩ := e2
          obtain ⟨-, rfl⟩ := e
          exact ⟨_, by simp only [h1, h2, h3, h4, Out.ok_bind]; rfl, (substr_iff _ _ _).mpr hs⟩
      · simp only [hr, Bool.false_eq_true, if_false]
        have one : ∀ lbl : String, (∃ b, (do
            let __discr ← (do
              let __discr ← readMPI t.secret 0
              return ([secretLine lbl __discr.1], __discr.2) : Out (List Act × Nat))
            let sum ← substr t.secret __discr.2 2
            return ([] ++ __discr.1 ++ [Act.line (ascii "2 Octet Checksum : " ++ hexlify sum)])) = Out.ok b) ↔
            ∃ l pos, readMPIs t.secret 1 0 = .ok (l, pos) ∧ pos ≤ t.secret.length := by
          intro lbl
          simp only [bind_ok_iff, Out.pure_eq, ok_exists, and_true, readMPIs]
          constructor
          · rintro ⟨⟨l, pos⟩, h, hs⟩
            obtain ⟨⟨d, p1⟩, h1, h⟩ := Out.bind_eq_ok.mp h
            obtain ⟨rfl, rfl⟩ := Prod.mk.inj (Out.ok.inj h)
            exact ⟨[d], p1, by simp only [h1, Out.ok_bind], (substr_iff _ _ _).mp hs⟩
          · rintro ⟨l, pos, h, hs⟩
            obtain ⟨⟨d, p1⟩, h1, h⟩ := Out.bind_eq_ok.mp h
            simp only [Out.ok_bind, Out.ok.injEq, Prod.mk.injEq] at h
            obtain ⟨-, rfl⟩ := h
            exact ⟨_, by simp only [h1, Out.ok_bind]; rfl, (substr_iff _ _ _).mpr hs⟩
        by_cases h16 : t.key.pka = 16
        · rw [if_pos h16]
          simp only [h16, true_or, if_true]
          exact one "ELGAMAL x"
        · rw [if_neg h16]
          by_cases h17 : t.key.pka = 17
          · rw [if_pos h17]
            simp only [h17, or_true, if_true]
            exact one "DSA x"
          · rw [if_neg h17]
            simp only [h16, h17, or_self, if_false, Out.ok_bind, bind_ok_iff, Out.pure_eq, ok_exists, and_true, readMPIs, substr_iff]
            simp
    · simp only [h0, ne_eq, not_false_eq_true, if_true, Out.pure_eq, ok_exists, false_implies]

theorem Tag5.show_iff (time : Nat → Bytes) (t : Tag5) : (∃ l, t.acts time = .ok l) ↔ t.CanShow := by
  rw [Tag5.acts, Tag5.CanShow, ← Tag5.private_iff, ← KeyPkt.show_iff time]
  simp only [bind_ok_iff, Out.pure_eq, ok_exists, and_true, exists_and_right]

/-- **Exactly these packets can be shown.** `show` of a packet of any kind succeeds if and only if the numbers it prints are there; otherwise it throws or reads outside a
vector. -/
theorem C62_packet (env : ShowEnv E) (showE : E → Out (List Act)) (showC : UInt8 → Bytes → Out (List Act)) (p : Pkt E) :
    (∃ l, p.acts env showE showC = .ok l) ↔ p.body.CanShow (fun e => ∃ l, showE e = .ok l) fun c d => ∃ l, showC c d = .ok l := by
  obtain ⟨fmt, part, body⟩ := p
  rw [Pkt.acts, bind_ok_iff]
  have title : ∀ tag, (∃ t, pktTitle fmt tag part = .ok t) ↔ (tagNames.lookup tag).isSome = true := by
    intro tag
    rw [pktTitle]
    cases tagNames.lookup tag <;> simp
  simp only [bind_ok_iff, Out.pure_eq, ok_exists, and_true, exists_and_right, title]
  have hp : ∀ n, (tagNames.lookup (60 + n)).isSome = true ↔ n < 4 := by
    intro n
    constructor
    · intro h
      by_contra hn
      have : tagNames.lookup (60 + n) = none := by
        rw [List.lookup_eq_none_iff]
        intro x hx
        have : ∀ x ∈ tagNames, x.1 ≤ 63 := by decide
        have := this x hx
        simp
        omega
      rw [this] at h
      cases h
    · intro h
      interval_cases n <;> decide
  cases body with
  | priv n s => simp only [Body.tag, Body.acts, ok_exists, and_true, Body.CanShow, hp]
  | pkesk t => simp only [Body.tag, Body.acts, Body.CanShow, ← t.show_iff]; simp [tagNames]
  | sig s => simp only [Body.tag, Body.acts, Body.CanShow, ← s.show_iff env]; simp [tagNames]
  | secretKey t => simp only [Body.tag, Body.acts, Body.CanShow, ← t.show_iff env.time]; simp [tagNames]
  | secretSubkey t => simp only [Body.tag, Body.acts, Body.CanShow, ← t.show_iff env.time]; simp [tagNames]
  | publicKey k => simp only [Body.tag, Body.acts, Body.CanShow, ← k.show_iff env.time]; simp [tagNames]
  | publicSubkey k => simp only [Body.tag, Body.acts, Body.CanShow, ← k.show_iff env.time]; simp [tagNames]
  | _ => simp [Body.tag, Body.acts, Body.CanShow, tagNames]

/-- **Signatures with embedded signatures**, to any depth. -/
theorem C62_signature (env : (n : Nat) → ShowEnv (SigAt n)) (n : Nat) (s : SigAt n) : (∃ l, showSig env n s = .ok l) ↔ SigCanShow n s := by
  induction n with
  | zero => exact s.elim
  | succ n ih =>
    rw [showSig, bind_ok_iff]
    simp only [Out.pure_eq, ok_exists, and_true]
    have hf : (fun e => ∃ l, showSig env n e = .ok l) = SigCanShow n := by
      funext e
      exact propext (ih e)
    have := Tag2.show_iff (env n) (showSig env n) s
    rw [hf] at this
    exact this

/-! ## What was read can be shown -/

theorem default_not_embedded (n : Nat) (e : E) : SubBody.default n ≠ some (.embedded (some e)) := by
  unfold SubBody.default
  split <;> simp

theorem readSubpacketsLoop_embedded (readE : Bytes → Out E) (canE : E → Prop) (hE : ∀ d e, readE d = .ok e → canE e) (data : Bytes) :
    ∀ (fuel pos : Nat) (l : List (Sub E)), readSubpacketsLoop readE data fuel pos = .ok l → ∀ x ∈ l, ∀ e, x.body = .embedded (some e) → canE e := by
  intro fuel
  induction fuel with
  | zero => intro pos l h; cases h
  | succ fuel ih =>
    intro pos l h
    rw [readSubpacketsLoop] at h
    split at h
    · obtain ⟨⟨len, pos'⟩, -, h⟩ := Out.bind_eq_ok.mp h
      obtain ⟨c, -, h⟩ := Out.bind_eq_ok.mp h
      cases hd : (SubBody.default (c &&& 127).toNat : Option (SubBody E)) with
      | none => rw [hd] at h; cases h
      | some fresh =>
        rw [hd] at h
        obtain ⟨d, -, h⟩ := Out.bind_eq_ok.mp h
        obtain ⟨body, hb, h⟩ := Out.bind_eq_ok.mp h
        obtain ⟨rest, hr, h⟩ := Out.bind_eq_ok.mp h
        obtain rfl := Out.ok.inj h
        intro x hx e he
        rcases List.mem_cons.mp hx with rfl | hx
        · dsimp only at he
          subst he
          rw [SubBody.read] at hb
          have hf : ∀ e, fresh ≠ .embedded (some e) := by
            intro e hfe
            exact default_not_embedded _ e (hfe ▸ hd)
          split at hb
          · exact absurd (Out.ok.inj hb) (hf e)
          · cases fresh with
            | embedded o =>
              obtain ⟨e', h1, h2⟩ := Out.bind_eq_ok.mp hb
              have := Out.ok.inj h2
              simp only [SubBody.embedded.injEq, Option.some.injEq] at this
              subst this
              exact hE d _ h1
            | trust l a => 
              simp only [SubBody.actualRead, Out.ok.injEq] at hb
              split at hb <;> cases hb
            | revKey c p f =>
              simp only [SubBody.actualRead, Out.ok.injEq] at hb
              split at hb <;> cases hb
            | target c p f =>
              simp only [SubBody.actualRead, Out.ok.injEq] at hb
              split at hb <;> cases hb
            | «notation» c p f =>
              simp only [SubBody.actualRead, Out.ok.injEq] at hb
              split at hb
              · split at hb <;> cases hb
              · cases hb
            | _ => simp [SubBody.actualRead] at hb
        · exact ih _ _ hr x hx e he
    · obtain rfl := Out.ok.inj h
      intro x hx
      cases hx

theorem tagRead_elim {α : Type} {fresh : α} {actual : Bytes → Nat → Nat → Out (α × Nat)} {span : Span} {ce : Bool} {a : α} (h : tagRead fresh actual span ce = .ok a) :
    (span.length = 0 ∧ a = fresh) ∨ ∃ pos, actual span.src span.start span.length = .ok (a, pos) := by
  rw [tagRead] at h
  split at h
  · exact Or.inl ⟨‹_›, (Out.ok.inj h).symm⟩
  · obtain ⟨⟨a', pos⟩, h1, h⟩ := Out.bind_eq_ok.mp h
    dsimp only at h
    split at h
    · cases h
    · obtain rfl := Out.ok.inj h
      exact Or.inr ⟨pos, h1⟩

theorem Tag2.canShow_of_read (readE : Bytes → Out E) (canE : E → Prop) (hE : ∀ d e, readE d = .ok e → canE e) (span : Span) (s : Tag2 E)
    (h : Tag2.readAt readE span = .ok s) : s.CanShow canE := by
  rcases tagRead_elim h with ⟨-, rfl⟩ | ⟨pos, h⟩
  · refine ⟨fun h => absurd h (by simp [Tag2.fresh, isRSA]), fun h => absurd h (by simp [Tag2.fresh]), fun _ x hx => absurd hx (by simp [Tag2.fresh])⟩
  · obtain ⟨v, -, h⟩ := Out.bind_eq_ok.mp h
    split at h
    · obtain ⟨five, -, h⟩ := Out.bind_eq_ok.mp h
      split at h
      · cases h
      obtain ⟨type, -, h⟩ := Out.bind_eq_ok.mp h
      obtain ⟨t, -, h⟩ := Out.bind_eq_ok.mp h
      obtain ⟨k, -, h⟩ := Out.bind_eq_ok.mp h
      split at h
      · cases h
      obtain ⟨pka, -, h⟩ := Out.bind_eq_ok.mp h
      obtain ⟨hash, -, h⟩ := Out.bind_eq_ok.mp h
      obtain ⟨left, -, h⟩ := Out.bind_eq_ok.mp h
      dsimp only at h
      split at h
      · rename_i hr
        obtain ⟨⟨mpi, p'⟩, hm, h⟩ := Out.bind_eq_ok.mp h
        obtain ⟨rfl, -⟩ := Prod.mk.inj (Out.ok.inj h)
        refine ⟨fun h => ?_, fun h => ?_, fun h => absurd h (show ¬ (3 : UInt8) = 4 by decide)⟩
        · rw [readMPIs_length _ _ _ _ _ hm]
        · have h : pka = 17 := h
          subst h
          exact absurd hr (by decide)
      · rename_i hr
        split at h
        · obtain ⟨⟨mpi, p'⟩, hm, h⟩ := Out.bind_eq_ok.mp h
          obtain ⟨rfl, -⟩ := Prod.mk.inj (Out.ok.inj h)
          refine ⟨fun h => absurd h hr, fun h => ?_, fun h => absurd h (show ¬ (3 : UInt8) = 4 by decide)⟩
          rw [readMPIs_length _ _ _ _ _ hm]
        · cases h
    · split at h
      · obtain ⟨type, -, h⟩ := Out.bind_eq_ok.mp h
        obtain ⟨pka, -, h⟩ := Out.bind_eq_ok.mp h
        obtain ⟨hash, -, h⟩ := Out.bind_eq_ok.mp h
        obtain ⟨h2, -, h⟩ := Out.bind_eq_ok.mp h
        obtain ⟨hs, -, h⟩ := Out.bind_eq_ok.mp h
        obtain ⟨hashed, hh, h⟩ := Out.bind_eq_ok.mp h
        obtain ⟨u2, -, h⟩ := Out.bind_eq_ok.mp h
        obtain ⟨us, -, h⟩ := Out.bind_eq_ok.mp h
        obtain ⟨unhashed, hu, h⟩ := Out.bind_eq_ok.mp h
        obtain ⟨left, -, h⟩ := Out.bind_eq_ok.mp h
        obtain ⟨⟨mpi, p'⟩, hm, h⟩ := Out.bind_eq_ok.mp h
        obtain ⟨rfl, -⟩ := Prod.mk.inj (Out.ok.inj h)
        have hl := readMPIs_length _ _ _ _ _ hm
        refine ⟨fun _ => ?_, fun h => ?_, fun _ x hx => ?_⟩
        · dsimp only
          rw [hl]
          split <;> omega
        · have h : pka = 17 := h
          dsimp only
          rw [hl, if_pos h]
        · rcases List.mem_append.mp hx with hx | hx
          · exact readSubpacketsLoop_embedded readE canE hE _ _ _ _ hh x hx
          · exact readSubpacketsLoop_embedded readE canE hE _ _ _ _ hu x hx
      · cases h

/-- **Signatures.** A signature read from any octets can be shown, however deep signatures are embedded in it. -/
theorem C62_read_signature (env : (n : Nat) → ShowEnv (SigAt n)) (n : Nat) (data : Bytes) (s : SigAt n) (h : readSigAt n data = .ok s) : ∃ l, showSig env n s = .ok l := by
  rw [C62_signature]
  induction n generalizing data with
  | zero => exact s.elim
  | succ n ih =>
    exact Tag2.canShow_of_read (readSigAt n) (SigCanShow n) (fun d e h => ih d e h) _ s h

theorem KeyPkt.canShow_of_common {data : Bytes} {pos p : Nat} {k : KeyPkt} (h : KeyPkt.readCommon data pos = .ok (k, p)) : k.CanShow := by
  obtain ⟨v, -, h⟩ := Out.bind_eq_ok.mp h
  obtain ⟨ti, -, h⟩ := Out.bind_eq_ok.mp h
  dsimp only at h
  split at h
  · rename_i hv
    obtain ⟨a, -, h⟩ := Out.bind_eq_ok.mp h
    obtain ⟨b, -, h⟩ := Out.bind_eq_ok.mp h
    obtain ⟨pka, -, h⟩ := Out.bind_eq_ok.mp h
    obtain ⟨⟨mpi, p3⟩, hm, h⟩ := Out.bind_eq_ok.mp h
    obtain ⟨rfl, -⟩ := Prod.mk.inj (Out.ok.inj h)
    refine ⟨fun _ => ?_, fun h => ?_⟩
    · rw [readMPIs_length _ _ _ _ _ hm]
    · have h : v = 4 := h
      subst h
      exact absurd hv (by decide)
  · rename_i hv
    split at h
    · obtain ⟨pka, -, h⟩ := Out.bind_eq_ok.mp h
      cases hc : KeyPkt.mpiCount pka with
      | none => rw [hc] at h; cases h
      | some n =>
        rw [hc] at h
        obtain ⟨⟨mpi, p3⟩, hm, h⟩ := Out.bind_eq_ok.mp h
        obtain ⟨rfl, -⟩ := Prod.mk.inj (Out.ok.inj h)
        have hl := readMPIs_length _ _ _ _ _ hm
        refine ⟨fun h => absurd h hv, fun _ => ⟨fun hr => ?_, fun h => ?_, fun h => ?_⟩⟩
        · have hr : isRSA pka = true := hr
          rw [KeyPkt.mpiCount, if_pos hr] at hc
          obtain rfl := Option.some.inj hc
          dsimp only
          rw [hl]
        · have h : pka = 16 := h
          subst h
          obtain rfl : 3 = n := Option.some.inj ((by decide : KeyPkt.mpiCount 16 = some 3).symm.trans hc)
          dsimp only
          rw [hl]
        · have h : pka = 17 := h
          subst h
          obtain rfl : 4 = n := Option.some.inj ((by decide : KeyPkt.mpiCount 17 = some 4).symm.trans hc)
          dsimp only
          rw [hl]
    · rename_i h4
      obtain ⟨rfl, -⟩ := Prod.mk.inj (Out.ok.inj h)
      exact ⟨fun h => absurd h hv, fun h => absurd h h4⟩

theorem KeyPkt.canShow_of_read {span : Span} {k : KeyPkt} (hl : span.length ≠ 0) (h : KeyPkt.readAt span = .ok k) : k.CanShow := by
  rcases tagRead_elim h with ⟨h0, -⟩ | ⟨pos, h⟩
  · exact absurd h0 hl
  · exact KeyPkt.canShow_of_common h

theorem Tag5.canShow_of_read {span : Span} {t : Tag5} (hl : span.length ≠ 0) (h : Tag5.readAt span = .ok t) (hc : t.s2kCon ≠ 0) : t.CanShow := by
  rcases tagRead_elim h with ⟨h0, -⟩ | ⟨pos, h1⟩
  · exact absurd h0 hl
  · obtain ⟨⟨k, p1⟩, hk, h1⟩ := Out.bind_eq_ok.mp h1
    obtain ⟨con, -, h1⟩ := Out.bind_eq_ok.mp h1
    obtain ⟨⟨sym, s2k, p2⟩, hp, h1⟩ := Out.bind_eq_ok.mp h1
    obtain ⟨iv, -, h1⟩ := Out.bind_eq_ok.mp h1
    obtain ⟨sec, -, h1⟩ := Out.bind_eq_ok.mp h1
    obtain ⟨rfl, -⟩ := Prod.mk.inj (Out.ok.inj h1)
    refine ⟨KeyPkt.canShow_of_common hk, fun hs => ?_, fun h => absurd h hc⟩
    have hs : con > 253 := hs
    have hs' : con = 254 ∨ con = 255 := by
      have h1 : 253 < con.toNat := UInt8.lt_iff_toNat_lt.mp hs
      have h2 := con.toNat_lt
      have : con.toNat = 254 ∨ con.toNat = 255 := by omega
      rcases this with h | h
      · exact Or.inl (UInt8.toNat_inj.mp h)
      · exact Or.inr (UInt8.toNat_inj.mp h)
    rw [Tag5.readProtection] at hp
    rw [if_pos (by rcases hs' with rfl | rfl <;> decide)] at hp
    obtain ⟨sy, -, hp⟩ := Out.bind_eq_ok.mp hp
    obtain ⟨⟨s, p3⟩, -, hp⟩ := Out.bind_eq_ok.mp hp
    obtain ⟨-, hp⟩ := Prod.mk.inj (Out.ok.inj hp)
    obtain ⟨rfl, -⟩ := Prod.mk.inj hp
    simp

/-- **What was read can be shown.** Every packet read from a body that is not empty can be shown, except session key packets and secret keys without protection (whose
numbers were not looked at, see below), if what is embedded or compressed in it can be shown. -/
theorem C62_read (env : ShowEnv E) (showE : E → Out (List Act)) (showC : UInt8 → Bytes → Out (List Act)) (readE : Bytes → Out E)
    (hE : ∀ d e, readE d = .ok e → ∃ l, showE e = .ok l) (fmt : Fmt) (part : Bool) (tag : Nat) (span : Span) (b : Body E) (h : Body.parse readE tag span = .ok b)
    (hl : span.length ≠ 0) (h1 : tag ≠ 1) (h0 : ∀ t, b.secretPart = some t → t.s2kCon ≠ 0) (h8 : ∀ c d, b = .compressed c d → ∃ l, showC c d = .ok l) :
    ∃ l, Pkt.acts env showE showC ⟨fmt, part, b⟩ = .ok l := by
  rw [C62_packet]
  rw [Body.parse.eq_def] at h
  split at h
  all_goals first | exact absurd rfl h1 | cases h | obtain ⟨x, hx, h⟩ := Out.bind_eq_ok.mp h
  all_goals obtain rfl := Out.ok.inj h
  all_goals first
    | exact Tag2.canShow_of_read readE _ hE span x hx
    | exact Tag5.canShow_of_read hl hx (h0 x rfl)
    | exact KeyPkt.canShow_of_read hl hx
    | exact h8 _ _ rfl
    | trivial
    | (simp only [Body.CanShow]; omega)

/-! ## The layout -/

/-- The text of lines, each so many levels below where one is. -/
def Hr.layout (h : Hr) (ls : List (Nat × Bytes)) : Bytes := ls.flatMap fun x => h.prefix_ ++ (List.replicate (h.level + x.1) h.indent).flatten ++ x.2 ++ [10]

/-- The lines among the actions with their levels, from level `d`. -/
def linesFrom : (d : Nat) → List Act → List (Nat × Bytes)
  | _, [] => []
  | d, .line s :: l => (d, s) :: linesFrom d l
  | d, .down :: l => linesFrom (d + 1) l
  | d, .up :: l => linesFrom (d - 1) l
  | d, .file _ _ :: l => linesFrom d l

/-- The level behind the actions, none if it would fall below the first or if a file is written and that is not allowed. -/
def levelFrom (ok : Bool) : (d : Nat) → List Act → Option Nat
  | d, [] => some d
  | d, .line _ :: l => levelFrom ok d l
  | d, .down :: l => levelFrom ok (d + 1) l
  | 0, .up :: _ => none
  | d + 1, .up :: l => levelFrom ok d l
  | d, .file _ _ :: l => if ok then levelFrom ok d l else none

/-- Actions that leave the level as it was. -/
def Neat (ok : Bool) (l : List Act) : Prop := ∀ d, levelFrom ok d l = some d

variable {ok : Bool}

theorem levelFrom_append (a b : List Act) (d : Nat) : levelFrom ok d (a ++ b) = (levelFrom ok d a).bind fun d => levelFrom ok d b := by
  induction a generalizing d with
  | nil => rfl
  | cons x a ih =>
    cases x with
    | up => cases d with
      | zero => rfl
      | succ d => exact ih d
    | file n c => cases ok with
      | false => rfl
      | true => exact ih d
    | _ => exact ih _

theorem levelFrom_neat {a : List Act} (h : Neat ok a) (b : List Act) (d : Nat) : levelFrom ok d (a ++ b) = levelFrom ok d b := by
  rw [levelFrom_append, h]; rfl

theorem run_layout (l : List Act) : ∀ (h : Hr) (base d d' : Nat), h.level = base + d → levelFrom ok d l = some d' →
    (h.run l).prefix_ = h.prefix_ ∧ (h.run l).indent = h.indent ∧ (h.run l).level = base + d' ∧
      (h.run l).data = h.data ++ Hr.layout { h with level := base } (linesFrom d l) := by
  induction l with
  | nil => intro h base d d' hl hd; rw [levelFrom] at hd; obtain rfl := Option.some.inj hd; exact ⟨rfl, rfl, hl, by simp [Hr.run, linesFrom, Hr.layout]⟩
  | cons x l ih =>
    intro h base d d' hl hd
    have e : h.run (x :: l) = (h.act x).run l := rfl
    rw [e]
    cases x with
    | line s =>
      obtain ⟨a1, a2, a3, a4⟩ := ih (h.act (.line s)) base d d' hl hd
      refine ⟨a1, a2, a3, ?_⟩
      rw [a4, linesFrom]
      simp [Hr.act, Hr.layout, hl]
    | down =>
      obtain ⟨a1, a2, a3, a4⟩ := ih (h.act .down) base (d + 1) d' (by simp [Hr.act, hl]; omega) hd
      exact ⟨a1, a2, a3, a4⟩
    | up =>
      cases d with
      | zero => cases hd
      | succ d =>
        obtain ⟨a1, a2, a3, a4⟩ := ih (h.act .up) base d d' (by simp [Hr.act, hl]) hd
        exact ⟨a1, a2, a3, a4⟩
    | file n c =>
      cases ok with
      | false => cases hd
      | true =>
        obtain ⟨a1, a2, a3, a4⟩ := ih (h.act (.file n c)) base d d' hl hd
        exact ⟨a1, a2, a3, a4⟩

theorem neat_no_files {l : List Act} (h : Neat false l) (n c : Bytes) : .file n c ∉ l := by
  have : ∀ (l : List Act) (d d' : Nat), levelFrom false d l = some d' → .file n c ∉ l := by
    intro l
    induction l with
    | nil => intro d d' _ hm; cases hm
    | cons x l ih =>
      intro d d' hd hm
      rcases List.mem_cons.mp hm with rfl | hm'
      · cases hd
      · cases x with
        | up => cases d with
          | zero => cases hd
          | succ d => exact ih d d' hd hm'
        | file n c => cases hd
        | _ => exact ih _ d' hd hm'
  exact this l 0 0 (h 0)

theorem neat_nil : Neat ok [] := fun _ => rfl
theorem neat_append {a b : List Act} (ha : Neat ok a) (hb : Neat ok b) : Neat ok (a ++ b) := fun d => by rw [levelFrom_neat ha, hb]
theorem neat_flat {α : Type} (l : List α) (f : α → List Act) (h : ∀ x ∈ l, Neat ok (f x)) : Neat ok (l.flatMap f) := by
  induction l with
  | nil => exact neat_nil
  | cons a l ih =>
    rw [List.flatMap_cons]
    exact neat_append (h a (by simp)) (ih fun x hx => h x (by simp [hx]))
theorem neat_lines {α : Type} (l : List α) (f : α → Bytes) : Neat ok (l.map fun x => .line (f x)) := by
  induction l with
  | nil => exact neat_nil
  | cons a l ih => exact ih
theorem neat_wrap {l : List Act} (t : Bytes) (h : Neat ok l) : Neat ok ([.line t, .down] ++ l ++ [.up]) := by
  intro d
  rw [List.append_assoc, levelFrom_append]
  simp only [levelFrom, Option.bind_some]
  rw [levelFrom_neat h]
  rfl

theorem S2K.neat (s : S2K) : Neat ok s.acts := by
  cases s <;> (intro d; rfl)

theorem flags_neat (names : List (Nat × String)) (num : Nat → Bytes) (c : UInt8) : Neat ok (flagActs names num c) := neat_lines _ _

theorem SubBody.neat (env : ShowEnv E) (showE : E → Out (List Act)) (hE : ∀ e l, showE e = .ok l → Neat ok l) (b : SubBody E) (l : List Act) (h : b.acts env showE = .ok l) : Neat ok l := by
  cases b with
  | embedded e =>
    cases e with
    | none => obtain rfl := Out.ok.inj h; exact neat_nil
    | some e => exact hE e l h
  | prefSym s => obtain rfl := Out.ok.inj h; exact neat_lines _ _
  | prefHash s => obtain rfl := Out.ok.inj h; exact neat_lines _ _
  | prefComp s => obtain rfl := Out.ok.inj h; exact neat_lines _ _
  | keyServerPrefs s => obtain rfl := Out.ok.inj h; exact neat_flat _ _ fun x _ => flags_neat _ _ x
  | keyFlags s => obtain rfl := Out.ok.inj h; exact neat_flat _ _ fun x _ => flags_neat _ _ x
  | features s => obtain rfl := Out.ok.inj h; exact neat_flat _ _ fun x _ => flags_neat _ _ x
  | «notation» f m n => obtain rfl := Out.ok.inj h; exact neat_append (neat_lines _ _) fun _ => rfl
  | reason c w =>
    obtain rfl := Out.ok.inj h
    intro d
    simp only [levelFrom]
    split <;> rfl
  | _ => obtain rfl := Out.ok.inj h; intro d; rfl

theorem subs_neat (env : ShowEnv E) (showE : E → Out (List Act)) (hE : ∀ e l, showE e = .ok l → Neat ok l) (ss : List (Sub E)) :
    ∀ (c : Nat) (l : List Act), subsActs env showE c ss = .ok l → Neat ok l := by
  induction ss with
  | nil => intro c l h; obtain rfl := Out.ok.inj h; exact neat_nil
  | cons s ss ih =>
    intro c l h
    rw [subsActs] at h
    obtain ⟨⟨c', l1⟩, h1, h⟩ := Out.bind_eq_ok.mp h
    obtain ⟨l2, h2, h⟩ := Out.bind_eq_ok.mp h
    obtain rfl := Out.ok.inj h
    refine neat_append ?_ (ih _ _ h2)
    rw [Sub.acts] at h1
    obtain ⟨t, -, h1⟩ := Out.bind_eq_ok.mp h1
    dsimp only at h1
    split at h1
    · obtain ⟨l3, h3, h1⟩ := Out.bind_eq_ok.mp h1
      obtain ⟨-, rfl⟩ := Prod.mk.inj (Out.ok.inj h1)
      refine neat_wrap t ?_
      obtain rfl := Out.ok.inj h3; intro d; rfl
    · obtain ⟨l3, h3, h1⟩ := Out.bind_eq_ok.mp h1
      obtain ⟨-, rfl⟩ := Prod.mk.inj (Out.ok.inj h1)
      exact neat_wrap t (SubBody.neat env showE hE _ _ h3)

theorem subList_neat (env : ShowEnv E) (showE : E → Out (List Act)) (hE : ∀ e l, showE e = .ok l → Neat ok l) (t : String) (ss : List (Sub E)) (l : List Act)
    (h : subListActs env showE t ss = .ok l) : Neat ok l := by
  rw [subListActs.eq_def] at h
  split at h
  · obtain rfl := Out.ok.inj h; exact neat_nil
  · obtain ⟨a, h1, h⟩ := Out.bind_eq_ok.mp h
    obtain rfl := Out.ok.inj h
    exact neat_wrap _ (subs_neat env showE hE _ _ _ h1)

theorem Tag2.neat (env : ShowEnv E) (showE : E → Out (List Act)) (hE : ∀ e l, showE e = .ok l → Neat ok l) (s : Tag2 E) (l : List Act) (h : s.acts env showE = .ok l) : Neat ok l := by
  obtain ⟨mid, h1, h⟩ := Out.bind_eq_ok.mp h
  obtain ⟨mpis, h2, h⟩ := Out.bind_eq_ok.mp h
  obtain rfl := Out.ok.inj h
  refine neat_append (neat_append (neat_append (fun _ => rfl) ?_) fun _ => rfl) ?_
  · split at h1
    · obtain rfl := Out.ok.inj h1; intro d; rfl
    · split at h1
      · obtain ⟨a, ha, h1⟩ := Out.bind_eq_ok.mp h1
        obtain ⟨b, hb, h1⟩ := Out.bind_eq_ok.mp h1
        obtain rfl := Out.ok.inj h1
        exact neat_append (neat_append (fun _ => rfl) (subList_neat env showE hE _ _ _ ha)) (subList_neat env showE hE _ _ _ hb)
      · obtain rfl := Out.ok.inj h1; exact neat_nil
  · split at h2
    · obtain ⟨a, ha, h2⟩ := Out.bind_eq_ok.mp h2
      obtain rfl := Out.ok.inj h2; intro d; rfl
    · split at h2
      · obtain ⟨a, ha, h2⟩ := Out.bind_eq_ok.mp h2
        obtain ⟨b, hb, h2⟩ := Out.bind_eq_ok.mp h2
        obtain rfl := Out.ok.inj h2; intro d; rfl
      · obtain rfl := Out.ok.inj h2; exact neat_nil

theorem KeyPkt.neat (time : Nat → Bytes) (k : KeyPkt) (l : List Act) (h : k.acts time = .ok l) : Neat ok l := by
  rw [KeyPkt.acts] at h
  split at h
  · obtain ⟨a, ha, h⟩ := Out.bind_eq_ok.mp h
    obtain ⟨b, hb, h⟩ := Out.bind_eq_ok.mp h
    obtain rfl := Out.ok.inj h
    refine neat_append (neat_append (fun _ => rfl) ?_) fun _ => rfl
    split <;> exact fun _ => rfl
  · split at h
    · dsimp only at h
      split at h
      · obtain ⟨a, ha, h⟩ := Out.bind_eq_ok.mp h
        obtain ⟨b, hb, h⟩ := Out.bind_eq_ok.mp h
        obtain rfl := Out.ok.inj h
        exact fun _ => rfl
      · split at h
        · obtain ⟨a, ha, h⟩ := Out.bind_eq_ok.mp h
          obtain ⟨b, hb, h⟩ := Out.bind_eq_ok.mp h
          obtain ⟨c, hc, h⟩ := Out.bind_eq_ok.mp h
          obtain rfl := Out.ok.inj h
          exact fun _ => rfl
        · split at h
          · obtain ⟨a, ha, h⟩ := Out.bind_eq_ok.mp h
            obtain ⟨b, hb, h⟩ := Out.bind_eq_ok.mp h
            obtain ⟨c, hc, h⟩ := Out.bind_eq_ok.mp h
            obtain ⟨e, he, h⟩ := Out.bind_eq_ok.mp h
            obtain rfl := Out.ok.inj h
            exact fun _ => rfl
          · obtain rfl := Out.ok.inj h
            exact fun _ => rfl
    · obtain rfl := Out.ok.inj h
      exact fun _ => rfl

theorem Tag5.neat (time : Nat → Bytes) (t : Tag5) (l : List Act) (h : t.acts time = .ok l) : Neat ok l := by
  obtain ⟨a, ha, h⟩ := Out.bind_eq_ok.mp h
  obtain ⟨b, hb, h⟩ := Out.bind_eq_ok.mp h
  obtain rfl := Out.ok.inj h
  refine neat_append (KeyPkt.neat _ _ _ ha) ?_
  obtain ⟨s, hs, hb⟩ := Out.bind_eq_ok.mp hb
  have hs : Neat ok s := by
    split at hs
    · split at hs
      · cases hs
      · obtain rfl := Out.ok.inj hs
        refine neat_append (neat_append (fun _ => rfl) (S2K.neat _)) ?_
        split <;> exact fun _ => rfl
    · obtain rfl := Out.ok.inj hs; exact neat_nil
  split at hb
  · obtain rfl := Out.ok.inj hb
    exact neat_append hs fun _ => rfl
  · obtain ⟨⟨x, pos⟩, hx, hb⟩ := Out.bind_eq_ok.mp hb
    obtain ⟨sum, -, hb⟩ := Out.bind_eq_ok.mp hb
    obtain rfl := Out.ok.inj hb
    refine neat_append (neat_append hs ?_) fun _ => rfl
    split at hx
    · obtain ⟨a, ha, hx⟩ := Out.bind_eq_ok.mp hx
      obtain ⟨b, hb, hx⟩ := Out.bind_eq_ok.mp hx
      obtain ⟨c, hc, hx⟩ := Out.bind_eq_ok.mp hx
      obtain ⟨e, he, hx⟩ := Out.bind_eq_ok.mp hx
      obtain ⟨rfl, -⟩ := Prod.mk.inj (Out.ok.inj hx)
      exact fun _ => rfl
    · split at hx
      · obtain ⟨a, ha, hx⟩ := Out.bind_eq_ok.mp hx
        obtain ⟨rfl, -⟩ := Prod.mk.inj (Out.ok.inj hx)
        exact fun _ => rfl
      · split at hx
        · obtain ⟨a, ha, hx⟩ := Out.bind_eq_ok.mp hx
          obtain ⟨rfl, -⟩ := Prod.mk.inj (Out.ok.inj hx)
          exact fun _ => rfl
        · obtain ⟨rfl, -⟩ := Prod.mk.inj (Out.ok.inj hx)
          exact fun _ => rfl

theorem Body.neat (env : ShowEnv E) (showE : E → Out (List Act)) (showC : UInt8 → Bytes → Out (List Act)) (hE : ∀ e l, showE e = .ok l → Neat ok l)
    (b : Body E) (hC : ∀ c d l, b = .compressed c d → showC c d = .ok l → Neat ok l) (hA : ok = true ∨ ∀ as, b ≠ .userAttr as) (l : List Act) (h : b.acts env showE showC = .ok l) : Neat ok l := by
  cases b with
  | pkesk t =>
    rw [Body.acts, Tag1.acts] at h
    split at h
    · obtain ⟨a, ha, h⟩ := Out.bind_eq_ok.mp h
      obtain rfl := Out.ok.inj h
      exact fun _ => rfl
    · split at h
      · obtain ⟨a, ha, h⟩ := Out.bind_eq_ok.mp h
        obtain ⟨b, hb, h⟩ := Out.bind_eq_ok.mp h
        obtain rfl := Out.ok.inj h
        exact fun _ => rfl
      · obtain rfl := Out.ok.inj h
        exact fun _ => rfl
  | sig s => exact Tag2.neat env showE hE s l h
  | skesk t =>
    obtain rfl := Out.ok.inj h
    refine neat_append (neat_append (fun _ => rfl) ?_) ?_
    · split
      · exact S2K.neat _
      · exact fun _ => rfl
    · split <;> exact fun _ => rfl
  | secretKey t => exact Tag5.neat _ t l h
  | secretSubkey t => exact Tag5.neat _ t l h
  | publicKey t => exact KeyPkt.neat _ t l h
  | publicSubkey t => exact KeyPkt.neat _ t l h
  | compressed c d => exact hC c d l rfl h
  | userAttr as =>
    obtain rfl : ok = true := hA.elim id fun h => absurd rfl (h as)
    obtain rfl := Out.ok.inj h
    refine neat_flat _ _ fun x _ => ?_
    rw [Attr.acts]
    refine neat_wrap _ ?_
    split <;> exact fun _ => rfl
  | _ => obtain rfl := Out.ok.inj h; exact fun _ => rfl

theorem Pkt.neat (env : ShowEnv E) (showE : E → Out (List Act)) (showC : UInt8 → Bytes → Out (List Act)) (hE : ∀ e l, showE e = .ok l → Neat ok l)
    (p : Pkt E) (hC : ∀ c d l, p.body = .compressed c d → showC c d = .ok l → Neat ok l) (hA : ok = true ∨ ∀ as, p.body ≠ .userAttr as) (l : List Act) (h : p.acts env showE showC = .ok l) : Neat ok l := by
  obtain ⟨t, -, h⟩ := Out.bind_eq_ok.mp h
  obtain ⟨a, ha, h⟩ := Out.bind_eq_ok.mp h
  obtain rfl := Out.ok.inj h
  exact neat_wrap t (Body.neat env showE showC hE _ hC hA _ ha)

theorem pkts_neat (f : Pkt E → Out (List Act)) (hf : ∀ p l, f p = .ok l → Neat ok l) (ps : List (Pkt E)) : ∀ l, pktsActs f ps = .ok l → Neat ok l := by
  induction ps with
  | nil => intro l h; obtain rfl := Out.ok.inj h; exact neat_nil
  | cons p ps ih =>
    intro l h
    obtain ⟨a, ha, h⟩ := Out.bind_eq_ok.mp h
    obtain ⟨b, hb, h⟩ := Out.bind_eq_ok.mp h
    obtain rfl := Out.ok.inj h
    exact neat_append (hf p a ha) (ih b hb)

theorem showSig_neat (env : (n : Nat) → ShowEnv (SigAt n)) (n : Nat) : ∀ (s : SigAt n) (l : List Act), showSig env n s = .ok l → Neat ok l := by
  induction n with
  | zero => intro s; exact s.elim
  | succ n ih =>
    intro s l h
    obtain ⟨a, ha, h⟩ := Out.bind_eq_ok.mp h
    obtain rfl := Out.ok.inj h
    exact neat_wrap _ (Tag2.neat (env n) (showSig env n) ih s a ha)

theorem showCompressed_neat (env : ShowEnv E) (showE : E → Out (List Act)) (hE : ∀ e l, showE e = .ok l → Neat true l) (z : Zip) (readE : Bytes → Out E) (depth : Nat) :
    ∀ (c : UInt8) (d : Bytes) (l : List Act), showCompressed env showE z readE depth c d = .ok l → Neat true l := by
  induction depth with
  | zero => intro c d l h; cases h
  | succ depth ih =>
    intro c d l h
    rw [showCompressed] at h
    obtain ⟨a, ha, h⟩ := Out.bind_eq_ok.mp h
    obtain rfl := Out.ok.inj h
    have hn : Neat true a := by
      split at ha
      · obtain rfl := Out.ok.inj ha; exact neat_nil
      · obtain ⟨data, -, ha⟩ := Out.bind_eq_ok.mp ha
        obtain ⟨m, -, ha⟩ := Out.bind_eq_ok.mp ha
        obtain ⟨x, hx, ha⟩ := Out.bind_eq_ok.mp ha
        have := pkts_neat _ (fun p l h => Pkt.neat env showE _ hE p (fun c d l _ => ih c d l) (Or.inl rfl) l h) _ _ hx
        split at ha
        · obtain rfl := Out.ok.inj ha; exact this
        · obtain ⟨t, -, ha⟩ := Out.bind_eq_ok.mp ha
          obtain rfl := Out.ok.inj ha
          exact neat_wrap t this
    have := neat_append (a := [.line (ascii "Compression Algorithm: " ++ mapped compNames c.toNat ++ ascii " (compress " ++ dec c.toNat ++ ascii ")")]) (fun _ => rfl)
      (neat_wrap (ascii "Compressed Data:") hn)
    simpa using this

/-- **The layout.** What is shown of a packet, with anything embedded and compressed in it, is its title at the level one is on, and then whole lines that all stand at
least one level deeper; the level is the same afterwards, so the next packet's title stands where this one's does. -/
theorem C62_layout (n depth : Nat) (env : (n : Nat) → ShowEnv (SigAt n)) (z : Zip) (readE : Bytes → Out (SigAt n)) (p : Pkt (SigAt n)) (l : List Act)
    (h : p.acts (env n) (showSig env n) (showCompressed (env n) (showSig env n) z readE depth) = .ok l) :
    ∃ title lines, pktTitle p.fmt p.body.tag p.part = .ok title ∧ (∀ x ∈ lines, 1 ≤ x.1) ∧
      ∀ h : Hr, (h.run l).level = h.level ∧ (h.run l).data = h.data ++ h.layout ((0, title) :: lines) := by
  obtain ⟨t, ht, h⟩ := Out.bind_eq_ok.mp h
  obtain ⟨a, ha, h⟩ := Out.bind_eq_ok.mp h
  obtain rfl := Out.ok.inj h
  have hn : Neat true a := Body.neat (env n) (showSig env n) _ (showSig_neat env n) _ (fun c d l _ => showCompressed_neat _ _ (showSig_neat env n) z readE depth c d l) (Or.inl rfl) _ ha
  have deep : ∀ (l : List Act) (d d' : Nat), levelFrom true d l = some d' → ∀ x ∈ linesFrom (d + 1) l, 1 ≤ x.1 := by
    intro l
    induction l with
    | nil => intro d d' _ x hx; cases hx
    | cons y l ih =>
      intro d d' hd
      cases y with
      | line s =>
        intro x hx
        rcases List.mem_cons.mp hx with rfl | hx
        · simp
        · exact ih d d' hd x hx
      | down => exact ih (d + 1) d' hd
      | up => cases d with
        | zero => cases hd
        | succ d => exact ih d d' hd
      | file n c => exact ih d d' hd
  have tail : ∀ (l : List Act) (d : Nat), linesFrom d (l ++ [.up]) = linesFrom d l := by
    intro l
    induction l with
    | nil => intro d; rfl
    | cons y l ih => intro d; cases y <;> simp [linesFrom, ih]
  refine ⟨t, linesFrom 1 a, ht, deep a 0 0 (hn 0), fun h => ?_⟩
  obtain ⟨-, -, h3, h4⟩ := run_layout _ h h.level 0 0 rfl (neat_wrap t hn 0)
  refine ⟨h3, ?_⟩
  rw [h4]
  simp only [List.cons_append, List.nil_append, linesFrom, tail]

/-! ## What was read and cannot be shown -/

/-- **Failure: an empty key packet.** A key packet without a body is read without an error, and showing it reads outside a vector. -/
theorem C62_empty_key_ub (env : ShowEnv E) (showE : E → Out (List Act)) (showC : UInt8 → Bytes → Out (List Act)) (readE : Bytes → Out E) (fmt : Fmt) (part : Bool) (span : Span)
    (hl : span.length = 0) : ∃ k : KeyPkt, Body.parse readE 6 span = .ok (.publicKey k) ∧ Pkt.acts env showE showC ⟨fmt, part, .publicKey k⟩ = .ub := by
  refine ⟨KeyPkt.fresh, ?_, ?_⟩
  · rw [Body.parse, KeyPkt.readAt, tagRead, if_pos hl]
    rfl
  · cases fmt <;> cases part <;> rfl

/-- **Failure: a session key packet without numbers.** Ten octets, the last a known algorithm, behind a header are read without an error, and showing the packet reads outside a vector. -/
theorem C62_session_ub (env : ShowEnv E) (showE : E → Out (List Act)) (showC : UInt8 → Bytes → Out (List Act)) (readE : Bytes → Out E) (fmt : Fmt) (part : Bool)
    (pre id : Bytes) (v pka : UInt8) (hid : id.length = 8) (hp : pka ≤ 3 ∨ pka = 16) :
    ∃ t : Tag1, Body.parse readE 1 ⟨pre ++ v :: (id ++ [pka]), pre.length, 10, false⟩ = .ok (.pkesk t) ∧ Pkt.acts env showE showC ⟨fmt, part, .pkesk t⟩ = .ub := by
  refine ⟨⟨v, id, pka, []⟩, ?_, ?_⟩
  · have h0 : charAt (pre ++ v :: (id ++ [pka])) pre.length = .ok v := charAt_drop (rest := id ++ [pka]) (by simp)
    have h1 : substr (pre ++ v :: (id ++ [pka])) (pre.length + 1) 8 = .ok id := substr_drop (rest := [pka]) (by simp) (by simp) hid
    have h9 : charAt (pre ++ v :: (id ++ [pka])) (pre.length + 9) = .ok pka := charAt_drop (rest := []) (by
      rw [← List.drop_drop, List.drop_left, List.drop_succ_cons, List.drop_append_of_le_length (by omega), List.drop_of_length_le (by omega)]
      rfl)
    rw [Body.parse, Tag1.readAt, tagRead, if_neg (by simp)]
    simp only [Tag1.actualRead, h0, h1, h9, Out.ok_bind, untilLoop]
    rw [if_neg (by omega)]
    simp [Functor.map, Out.pure_eq]
  · rcases hp with hp | rfl
    · rw [Pkt.acts, Body.acts, Tag1.acts, if_pos hp]
      cases fmt <;> cases part <;> rfl
    · cases fmt <;> cases part <;> rfl

/-- **Failure: a secret key without protection and without its numbers.** It cannot be shown. -/
theorem C62_secret_fails (env : ShowEnv E) (showE : E → Out (List Act)) (showC : UInt8 → Bytes → Out (List Act)) (fmt : Fmt) (part : Bool) (t : Tag5) (h0 : t.s2kCon = 0)
    (hs : t.secret.length < 2) (hp : t.key.pka ∈ [1, 2, 3, 16, 17]) : ∀ l, Pkt.acts env showE showC ⟨fmt, part, .secretKey t⟩ ≠ .ok l := by
  intro l h
  obtain ⟨-, -, hc⟩ := (C62_packet env showE showC _).mp ⟨l, h⟩
  obtain ⟨ms, pos, hr, hle⟩ := hc h0
  have h1 : ∀ r, readMPI t.secret 0 ≠ .ok r := by
    intro r h
    obtain ⟨hi, -, h⟩ := Out.bind_eq_ok.mp h
    obtain ⟨lo, hlo, h⟩ := Out.bind_eq_ok.mp h
    obtain ⟨raw, hraw, h⟩ := Out.bind_eq_ok.mp h
    rw [substr, if_pos hs] at hraw
    cases hraw
  have : ∃ n, readMPIs t.secret (n + 1) 0 = .ok (ms, pos) := by
    simp only [List.mem_cons, List.not_mem_nil, or_false] at hp
    rcases hp with hp | hp | hp | hp | hp <;> rw [hp] at hr <;> exact ⟨_, hr⟩
  obtain ⟨n, hn⟩ := this
  obtain ⟨r, h, -⟩ := Out.bind_eq_ok.mp hn
  exact h1 r h

/-- Such a key is read: version 4, RSA, `n = e = 1`, no protection, and nothing behind it. -/
example : ∃ t : Tag5, Body.parse (E := Empty) (fun _ => .throw) 5 ⟨[4, 0, 0, 0, 0, 1, 0, 1, 1, 0, 1, 1, 0], 0, 13, false⟩ = .ok (.secretKey t) ∧ t.s2kCon = 0 ∧ t.secret.length < 2 ∧
    t.key.pka ∈ [1, 2, 3, 16, 17] := by
  refine ⟨⟨⟨4, 0, 1, [1, 1], 0⟩, 0, 0, none, [], []⟩, by decide +kernel, by decide, by decide, by decide⟩

/-! ## Times -/

/-- The creation time the last of these subpackets gives. -/
def lastTime (l : List (Sub E)) : Nat := l.foldl (fun c s => match s.body with | .sigTime t => t | _ => c) 0

theorem subs_create (env : ShowEnv E) (showE : E → Out (List Act)) (pre : List (Sub E)) : ∀ (c : Nat) (rest : List (Sub E)) (l : List Act),
    subsActs env showE c (pre ++ rest) = .ok l →
    ∃ a b, l = a ++ b ∧ subsActs env showE (pre.foldl (fun c s => match s.body with | .sigTime t => t | _ => c) c) rest = .ok b := by
  induction pre with
  | nil => intro c rest l h; exact ⟨[], l, rfl, h⟩
  | cons s pre ih =>
    intro c rest l h
    rw [List.cons_append, subsActs] at h
    obtain ⟨⟨c', l1⟩, h1, h⟩ := Out.bind_eq_ok.mp h
    obtain ⟨l2, h2, h⟩ := Out.bind_eq_ok.mp h
    obtain rfl := Out.ok.inj h
    have hc : c' = (match s.body with | .sigTime t => t | _ => c) := by
      rw [Sub.acts] at h1
      obtain ⟨t, -, h1⟩ := Out.bind_eq_ok.mp h1
      dsimp only at h1
      split at h1
      · obtain ⟨l3, h3, h1⟩ := Out.bind_eq_ok.mp h1
        exact (Prod.mk.inj (Out.ok.inj h1)).1.symm
      · obtain ⟨l3, h3, h1⟩ := Out.bind_eq_ok.mp h1
        exact (Prod.mk.inj (Out.ok.inj h1)).1.symm
    obtain ⟨a, b, rfl, hb⟩ := ih c' rest l2 h2
    refine ⟨l1 ++ a, b, by simp, ?_⟩
    rw [List.foldl_cons, ← hc]
    exact hb

/-- **The key's end.** It is shown as the time the signature's creation subpacket *in front of it* gives, plus the period, cut to 32 bits; the key's own creation time
plays no part. -/
theorem C62_key_expiry (env : ShowEnv E) (showE : E → Out (List Act)) (pre post : List (Sub E)) (crit : Bool) (dt : Nat) (hdt : dt ≠ 0) (l : List Act)
    (h : subsActs env showE 0 (pre ++ ⟨crit, .keyExpire dt⟩ :: post) = .ok l) :
    .line (ascii "Key Expiration Time: " ++ env.time ((lastTime pre + dt) % 2 ^ 32)) ∈ l := by
  obtain ⟨a, b, rfl, hb⟩ := subs_create env showE pre 0 _ l h
  rw [subsActs] at hb
  obtain ⟨⟨c', l1⟩, h1, hb⟩ := Out.bind_eq_ok.mp hb
  obtain ⟨l2, h2, hb⟩ := Out.bind_eq_ok.mp hb
  obtain rfl := Out.ok.inj hb
  rw [Sub.acts] at h1
  obtain ⟨t, -, h1⟩ := Out.bind_eq_ok.mp h1
  obtain ⟨-, rfl⟩ := Prod.mk.inj (Out.ok.inj h1)
  simp [hdt, lastTime]

/-- **Failure: the order matters.** With the same two subpackets the other way round, the key is shown to end shortly after 1970. -/
theorem C62_key_expiry_fails (env : ShowEnv E) (showE : E → Out (List Act)) (c dt : Nat) (hdt : dt ≠ 0) :
    ∃ l l', subsActs env showE 0 [⟨false, .sigTime c⟩, ⟨false, .keyExpire dt⟩] = .ok l ∧ subsActs env showE 0 [⟨false, .keyExpire dt⟩, ⟨false, .sigTime c⟩] = .ok l' ∧
      .line (ascii "Key Expiration Time: " ++ env.time ((c + dt) % 2 ^ 32)) ∈ l ∧ .line (ascii "Key Expiration Time: " ++ env.time (dt % 2 ^ 32)) ∈ l' := by
  obtain ⟨l, h⟩ := (subs_show_iff env showE 0 [⟨false, .sigTime c⟩, ⟨false, .keyExpire dt⟩]).mpr (by simp)
  obtain ⟨l', h'⟩ := (subs_show_iff env showE 0 [⟨false, .keyExpire dt⟩, ⟨false, .sigTime c⟩]).mpr (by simp)
  have h1 := C62_key_expiry env showE [⟨false, .sigTime c⟩] [] false dt hdt l h
  have h2 := C62_key_expiry env showE [] [⟨false, .sigTime c⟩] false dt hdt l' h'
  simp only [lastTime, List.foldl_cons, List.foldl_nil, Nat.zero_add] at h1 h2
  exact ⟨l, l', h, h', h1, h2⟩

/-- **Failure: the signature's end.** The period is shown as if it were a point in time, whatever the signature's creation time is. -/
theorem C62_sig_expiry_fails (env : ShowEnv E) (showE : E → Out (List Act)) (c dt : Nat) (crit : Bool) (hdt : dt ≠ 0) :
    ∃ t c', Sub.acts env showE c ⟨crit, .sigExpire dt⟩ = .ok (c', [.line t, .down, .line (ascii "Signature Expiration Time (Days): " ++ env.time dt), .up]) := by
  refine ⟨(if crit then ascii "Critical: " else []) ++ ascii "Signature Expiration Time" ++ ascii " Subpacket (sub " ++ dec 3 ++ ascii ") (" ++ dec (env.subSize ⟨crit, .sigExpire dt⟩) ++ ascii " octets)", c, ?_⟩
  rw [Sub.acts, Sub.title]
  simp only [SubBody.type, subNames, SubBody.acts]
  rw [if_pos hdt]
  rfl

/-! ## Text in packets -/

/-- **Failure: the text can be forged.** Whatever is shown of two user IDs can be had from one user ID with line feeds in it. -/
theorem C62_forged (env : ShowEnv E) (showE : E → Out (List Act)) (showC : UInt8 → Bytes → Out (List Act)) (a b : Bytes) (indents size : Nat) :
    ∃ u, showText (Pkt.acts env showE showC) [⟨.new, false, .userId u⟩] indents size = showText (Pkt.acts env showE showC) [⟨.new, false, .userId a⟩, ⟨.new, false, .userId b⟩] indents size ∧
      ∃ t, showText (Pkt.acts env showE showC) [⟨.new, false, .userId a⟩, ⟨.new, false, .userId b⟩] indents size = .ok t := by
  refine ⟨a ++ [10] ++ (Hr.fresh size indents).prefix_ ++ ascii "New: User ID (Tag 13)" ++ [10] ++ (Hr.fresh size indents).prefix_ ++ (Hr.fresh size indents).indent ++ ascii "User ID: " ++ b, ?_, ?_⟩
  · have hu : ∀ u, Pkt.acts env showE showC ⟨.new, false, .userId u⟩ = .ok [.line (ascii "New: User ID (Tag 13)"), .down, .line (ascii "User ID: " ++ u), .up] := by
      intro u
      have : pktTitle .new 13 false = .ok (ascii "New: User ID (Tag 13)") := by decide +kernel
      simp [Pkt.acts, Body.tag, Body.acts, this]
    simp [showText, pktsActs, hu, Hr.run, Hr.act, Hr.fresh]
  · exact ⟨_, rfl⟩

/-! ## Files -/

/-- **No other files.** Showing a packet that is neither a user attribute nor compressed writes no file, whatever signatures are embedded in it. -/
theorem C62_no_files (n : Nat) (env : (n : Nat) → ShowEnv (SigAt n)) (showC : UInt8 → Bytes → Out (List Act)) (p : Pkt (SigAt n)) (l : List Act)
    (h : p.acts (env n) (showSig env n) showC = .ok l) (hA : ∀ as, p.body ≠ .userAttr as) (hC : ∀ c d, p.body ≠ .compressed c d) (hr : Hr) :
    (hr.run l).files = hr.files := by
  have hn : Neat false l := Pkt.neat (env n) (showSig env n) showC (showSig_neat env n) p (fun c d l hp => absurd hp (hC c d)) (Or.inr hA) l h
  have : ∀ (l : List Act) (hr : Hr), (∀ n c, .file n c ∉ l) → (hr.run l).files = hr.files := by
    intro l
    induction l with
    | nil => intro hr _; rfl
    | cons x l ih =>
      intro hr hf
      have e : hr.run (x :: l) = (hr.act x).run l := rfl
      rw [e, ih _ fun n c hm => hf n c (List.mem_cons_of_mem _ hm)]
      cases x with
      | file n c => exact absurd (List.mem_cons_self ..) (hf n c)
      | _ => rfl
  exact this l hr fun n c => neat_no_files hn n c

/-- The name an image is given. -/
def imageFile (number : Nat) (encoding : UInt8) : Bytes := ascii "image" ++ dec number ++ ascii "." ++ mapped imageNames encoding.toNat

/-- **Images are written out.** Showing a user attribute writes each of its images, if such a file can be opened, and over whatever has that name. -/
theorem C62_images (env : ShowEnv E) (showE : E → Out (List Act)) (showC : UInt8 → Bytes → Out (List Act)) (fmt : Fmt) (part : Bool) (as : List Attr) (hr : Hr) :
    ∃ l, Pkt.acts env showE showC ⟨fmt, part, .userAttr as⟩ = .ok l ∧
      (hr.run l).files = hr.files ++ (as.zipIdx.filter fun x => env.opens (imageFile (env.imageNo x.2) x.1.encoding)).map fun x => (imageFile (env.imageNo x.2) x.1.encoding, x.1.image) := by
  obtain ⟨t, ht⟩ : ∃ t, pktTitle fmt 17 part = .ok t := ⟨_, rfl⟩
  refine ⟨_, by simp only [Pkt.acts, Body.tag, Body.acts, ht, Out.ok_bind]; rfl, ?_⟩
  have fileRun : ∀ (l : List Act) (hr : Hr), (hr.run l).files = hr.files ++ l.filterMap fun a => match a with | .file n c => some (n, c) | _ => none := by
    intro l
    induction l with
    | nil => intro hr; simp [Hr.run]
    | cons x l ih =>
      intro hr
      have e : hr.run (x :: l) = (hr.act x).run l := rfl
      rw [e, ih]
      cases x <;> simp [Hr.act]
  rw [fileRun]
  congr 1
  simp only [List.filterMap_append, List.filterMap_cons, List.filterMap_nil, List.append_nil, List.nil_append]
  generalize as.zipIdx = xs
  induction xs with
  | nil => rfl
  | cons x xs ih =>
    rw [List.flatMap_cons, List.filterMap_append, ih]
    by_cases ho : env.opens (imageFile (env.imageNo x.2) x.1.encoding) = true
    · rw [List.filter_cons, if_pos ho, List.map_cons]
      simp only [Attr.acts]
      rw [imageFile] at ho
      rw [if_pos ho]
      rfl
    · rw [List.filter_cons, if_neg ho]
      simp only [Attr.acts]
      rw [imageFile] at ho
      rw [if_neg ho]
      rfl

/-- **Failure: some images go elsewhere.** For the private encodings the name has a slash in it, so it names a file in another directory. -/
theorem C62_image_path_fails (number : Nat) (e : UInt8) (he : 100 ≤ e ∧ e ≤ 110) : (47 : UInt8) ∈ imageFile number e := by
  have : ∀ k : Fin 256, 100 ≤ k.val → k.val ≤ 110 → (47 : UInt8) ∈ mapped imageNames k.val := by decide +kernel
  rw [imageFile]
  exact List.mem_append_right _ (this ⟨e.toNat, e.toNat_lt⟩ (UInt8.le_iff_toNat_le.mp he.1) (UInt8.le_iff_toNat_le.mp he.2))

/-! ## An example -/

/-- An environment for the examples: times and sizes are not shown, no file can be opened. -/
def c62Env : (n : Nat) → ShowEnv (SigAt n) := fun _ => ⟨fun _ => [], fun _ => 0, fun _ => 0, fun i => i, fun _ => false⟩

/-- A user ID, two levels of four spaces in. -/
example : showText (Pkt.acts (c62Env 1) (showSig c62Env 1) fun _ _ => .throw) [⟨.new, false, .userId (ascii "Alice")⟩] 2 4 =
    .ok (ascii "        New: User ID (Tag 13)\n            User ID: Alice\n", []) := by decide +kernel

/-- A signature with an embedded signature can be read and shown. -/
example : readSigAt 2 [4, 0x18, 1, 2, 0, 0, 0, 15, 14, 32, 4, 0x19, 1, 2, 0, 0, 0, 0, 1, 2, 0, 1, 1, 9, 9, 0, 1, 1] =
    .ok (⟨4, 0x18, 1, 2, [1], [9, 9], 0, [], [], [⟨false, .embedded (some (⟨4, 0x19, 1, 2, [1], [1, 2], 0, [], [], []⟩ : Tag2 (SigAt 0)))⟩]⟩ : Tag2 (SigAt 1)) := by
  decide +kernel

end OpenPGP
