import Verif.Props.C62
import Verif.Model.Commands
import Verif.Spec.Shown
import Verif.Lemmas.Shown
import Verif.Lemmas.Time

/-!
# C66: what is shown says what is there
-/
namespace OpenPGP
open Shown
variable {E : Type}

/-! ## Lines -/

theorem linesFrom_append {a : List Act} (h : Neat true a) (b : List Act) (d : Nat) : linesFrom d (a ++ b) = linesFrom d a ++ linesFrom d b := by
  have key : ∀ (a : List Act) (k k' d : Nat), levelFrom true k a = some k' → linesFrom (d + k) (a ++ b) = linesFrom (d + k) a ++ linesFrom (d + k') b := by
    intro a
    induction a with
    | nil => intro k k' d h; rw [levelFrom] at h; obtain rfl := Option.some.inj h; rfl
    | cons x a ih =>
      intro k k' d h
      cases x with
      | line s => simp only [List.cons_append, linesFrom]; rw [ih k k' d h]
      | down => simp only [List.cons_append, linesFrom]; exact ih (k + 1) k' d h
      | up => cases k with
        | zero => cases h
        | succ k => simp only [List.cons_append, linesFrom, ← Nat.add_assoc, Nat.add_sub_cancel]; exact ih k k' d h
      | file n c => simp only [List.cons_append, linesFrom]; exact ih k k' d h
  exact key a 0 0 d (h 0)

theorem linesFrom_deep {a : List Act} (h : Neat true a) (d : Nat) : ∀ x ∈ linesFrom d a, d ≤ x.1 := by
  have key : ∀ (a : List Act) (k k' : Nat), levelFrom true k a = some k' → ∀ x ∈ linesFrom (d + k) a, d ≤ x.1 := by
    intro a
    induction a with
    | nil => intro k k' _ x hx; cases hx
    | cons y a ih =>
      intro k k' h
      cases y with
      | line s =>
        intro x hx
        rcases List.mem_cons.mp hx with rfl | hx
        · simp
        · exact ih k k' h x hx
      | down => exact ih (k + 1) k' h
      | up => cases k with
        | zero => cases h
        | succ k => simp only [linesFrom, ← Nat.add_assoc, Nat.add_sub_cancel]; exact ih k k' h
      | file n c => exact ih k k' h
  exact key a 0 0 (h 0)

/-- A title and what is one level deeper. -/
theorem linesFrom_block {a : List Act} (h : Neat true a) (t : Bytes) (r : List Act) (d : Nat) :
    linesFrom d ([.line t, .down] ++ a ++ [.up] ++ r) = (d, t) :: (linesFrom (d + 1) a ++ linesFrom d r) := by
  simp only [List.append_assoc, List.cons_append, List.nil_append, linesFrom]
  rw [linesFrom_append h]
  simp [linesFrom]

/-- The first line is not deeper than `d`. -/
def Back (d : Nat) (l : List (Nat × Bytes)) : Prop := ∀ x, l.head? = some x → x.1 ≤ d

theorem block_split {d : Nat} {A A' R R' : List (Nat × Bytes)} (hA : ∀ x ∈ A, d + 1 ≤ x.1) (hA' : ∀ x ∈ A', d + 1 ≤ x.1) (hR : Back d R) (hR' : Back d R')
    (h : A ++ R = A' ++ R') : A = A' ∧ R = R' := by
  induction A generalizing A' with
  | nil =>
    cases A' with
    | nil => exact ⟨rfl, h⟩
    | cons x A' =>
      have := hR x (by simp at h; simp [h])
      have := hA' x (by simp)
      omega
  | cons y A ih =>
    cases A' with
    | nil =>
      have := hR' y (by simp at h; simp [← h])
      have := hA y (by simp)
      omega
    | cons x A' =>
      simp only [List.cons_append, List.cons.injEq] at h
      obtain ⟨h1, h2⟩ := ih (fun z hz => hA z (by simp [hz])) (fun z hz => hA' z (by simp [hz])) h.2
      exact ⟨by rw [h.1, h1], h2⟩

/-! ## Single lines -/

theorem dec8_inj {a b : UInt8} (h : dec a.toNat = dec b.toNat) : a = b := UInt8.toNat_inj.mp (dec_inj h)

theorem label_inj (l : String) {a b : Bytes} (h : ascii l ++ a = ascii l ++ b) : a = b := List.append_cancel_left h

theorem pkaLine_inj {a b : UInt8} (h : pkaLine a = pkaLine b) : a = b := by
  unfold pkaLine at h
  exact dec8_inj (tail_eq (x := 32) (by decide +kernel) (dec_not (by decide)) (dec_not (by decide)) _ h).2

theorem hashLine_inj {a b : UInt8} (h : hashLine a = hashLine b) : a = b := by
  unfold hashLine at h
  exact dec8_inj (tail_eq (x := 32) (by decide +kernel) (dec_not (by decide)) (dec_not (by decide)) _ h).2

theorem mpiLine_inj {l l' : String} {a b : Nat} (h : mpiLine l a = mpiLine l' b) : a = b := by
  unfold mpiLine at h
  have h := Act.line.inj h
  have h : (ascii l ++ ascii " (" ++ dec (bitsize a)) ++ ascii " bits): " ++ mpitohex a ++ [] = (ascii l' ++ ascii " (" ++ dec (bitsize b)) ++ ascii " bits): " ++ mpitohex b ++ [] := by
    simpa using h
  exact mpitohex_inj (tail_eq (x := 32) (by decide +kernel) (mpitohex_not (by decide)) (mpitohex_not (by decide)) _ h).2

theorem mpiText_inj {l l' : String} {a b : Nat} (h : ascii l ++ ascii " (" ++ dec (bitsize a) ++ ascii " bits): " ++ mpitohex a =
    ascii l' ++ ascii " (" ++ dec (bitsize b) ++ ascii " bits): " ++ mpitohex b) : a = b := mpiLine_inj (l := l) (l' := l') (by rw [mpiLine, mpiLine, h])

theorem list_one {l : List Nat} (h : l.length = 1) : ∃ a, l = [a] := List.length_eq_one_iff.mp h
theorem list_two {l : List Nat} (h : l.length = 2) : ∃ a b, l = [a, b] := by
  match l, h with
  | [a, b], _ => exact ⟨a, b, rfl⟩
theorem list_three {l : List Nat} (h : l.length = 3) : ∃ a b c, l = [a, b, c] := by
  match l, h with
  | [a, b, c], _ => exact ⟨a, b, c, rfl⟩
theorem list_four {l : List Nat} (h : l.length = 4) : ∃ a b c d, l = [a, b, c, d] := by
  match l, h with
  | [a, b, c, d], _ => exact ⟨a, b, c, d, rfl⟩

theorem pkesk_shown {t t' : Tag1} (hw : t.pka ∈ [1, 2, 3] ∧ t.mpi.length = 1 ∨ t.pka = 16 ∧ t.mpi.length = 2)
    (hw' : t'.pka ∈ [1, 2, 3] ∧ t'.mpi.length = 1 ∨ t'.pka = 16 ∧ t'.mpi.length = 2) {l l' : List Act} (h : t.acts = .ok l) (h' : t'.acts = .ok l') (d : Nat)
    (e : linesFrom d l = linesFrom d l') : t = t' := by
  obtain ⟨v, k, p, m⟩ := t
  obtain ⟨v', k', p', m'⟩ := t'
  have form : ∀ (v : UInt8) (k : Bytes) (p : UInt8) (m : List Nat) (l : List Act), (p ∈ [1, 2, 3] ∧ m.length = 1 ∨ p = 16 ∧ m.length = 2) → Tag1.acts ⟨v, k, p, m⟩ = .ok l →
      ∃ r, l = [.line (ascii "Version: " ++ dec v.toNat), .line (ascii "KeyID: " ++ hexlify k), .line (pkaLine p)] ++ r ∧
        ((∃ a, p ∈ [1, 2, 3] ∧ m = [a] ∧ r = [mpiLine "RSA m**e mod n" a]) ∨ ∃ a b, p = 16 ∧ m = [a, b] ∧ r = [mpiLine "ELGAMAL g**k mod p" a, mpiLine "ELGAMAL m * y**k mod p" b]) := by
    intro v k p m l hw h
    rcases hw with ⟨hp, hm⟩ | ⟨hp, hm⟩
    · obtain ⟨a, rfl⟩ := list_one hm
      have h3 : p ≤ 3 := by clear h; revert p; decide
      rw [Tag1.acts] at h
      simp only [if_pos h3] at h
      obtain rfl := Out.ok.inj h
      exact ⟨_, rfl, Or.inl ⟨a, hp, rfl, rfl⟩⟩
    · obtain ⟨a, b, rfl⟩ := list_two hm
      subst hp
      obtain rfl := Out.ok.inj h
      exact ⟨_, rfl, Or.inr ⟨a, b, rfl, rfl, rfl⟩⟩
  obtain ⟨r, rfl, hr⟩ := form v k p m l hw h
  obtain ⟨r', rfl, hr'⟩ := form v' k' p' m' l' hw' h'
  simp only [List.cons_append, List.nil_append, linesFrom, List.cons.injEq, Prod.mk.injEq, true_and] at e
  obtain ⟨e1, e2, e3, e4⟩ := e
  obtain rfl := dec8_inj (label_inj _ e1)
  obtain rfl := hexlify_inj (label_inj _ e2)
  obtain rfl := pkaLine_inj e3
  rcases hr with ⟨a, hp, rfl, rfl⟩ | ⟨a, b, hp, rfl, rfl⟩ <;> rcases hr' with ⟨a', hp', rfl, rfl⟩ | ⟨a', b', hp', rfl, rfl⟩
  · simp only [mpiLine, linesFrom, List.cons.injEq, Prod.mk.injEq, true_and, and_true] at e4
    rw [mpiText_inj e4]
  · subst hp'; exact absurd hp (by decide)
  · subst hp; exact absurd hp' (by decide)
  · simp only [mpiLine, linesFrom, List.cons.injEq, Prod.mk.injEq, true_and, and_true] at e4
    rw [mpiText_inj e4.1, mpiText_inj e4.2]

theorem onePass_shown {t t' : Tag4} (d : Nat) (e : linesFrom d t.acts = linesFrom d t'.acts) : t = t' := by
  obtain ⟨v, ty, h, p, k, la⟩ := t
  obtain ⟨v', ty', h', p', k', la'⟩ := t'
  simp only [Tag4.acts, linesFrom, List.cons.injEq, Prod.mk.injEq, true_and, and_true] at e
  obtain ⟨e1, e2, e3, e4, e5, e6⟩ := e
  obtain rfl := dec8_inj (label_inj _ e1)
  obtain rfl := dec8_inj (tail_eq (x := 32) (by decide +kernel) (dec_not (by decide)) (dec_not (by decide)) _ e2).2
  obtain rfl := hashLine_inj e3
  obtain rfl := pkaLine_inj e4
  obtain rfl := hexlify_inj (label_inj _ e5)
  obtain rfl := dec8_inj (label_inj _ e6)
  rfl

/-! ## Specifiers, passphrase packets, keys -/

theorem named_inj {pre A B lab suf : Bytes} {a b : UInt8} (hp : lab.getLast? = some 32) (h : pre ++ (A ++ (lab ++ (dec a.toNat ++ suf))) = pre ++ (B ++ (lab ++ (dec b.toNat ++ suf)))) :
    a = b := by
  have h : A ++ lab ++ dec a.toNat ++ suf = B ++ lab ++ dec b.toNat ++ suf := by simpa using h
  exact dec8_inj (tail_eq hp (dec_not (by decide)) (dec_not (by decide)) _ h).2

theorem s2k_shown {s s' : S2K} (d : Nat) (r r' : List Act) (e : linesFrom d (s.acts ++ r) = linesFrom d (s'.acts ++ r')) : s = s' ∧ linesFrom d r = linesFrom d r' := by
  cases s <;> cases s' <;>
    simp only [S2K.acts, S2K.title, S2K.hash, List.cons_append, List.nil_append, List.append_assoc, linesFrom, List.cons.injEq, Prod.mk.injEq, true_and, Nat.add_sub_cancel] at e
  · obtain ⟨e1, e2⟩ := e
    obtain rfl := named_inj (by decide +kernel) e1
    exact ⟨rfl, e2⟩
  · exact absurd e.1 (by decide +kernel)
  · exact absurd e.1 (by decide +kernel)
  · exact absurd e.1 (by decide +kernel)
  · obtain ⟨e1, e2, e3⟩ := e
    obtain rfl := named_inj (by decide +kernel) e1
    obtain rfl := hexlify_inj (label_inj _ e2)
    exact ⟨rfl, e3⟩
  · exact absurd e.1 (by decide +kernel)
  · exact absurd e.1 (by decide +kernel)
  · exact absurd e.1 (by decide +kernel)
  · obtain ⟨e1, e2, e3, e4⟩ := e
    obtain rfl := named_inj (by decide +kernel) e1
    obtain rfl := hexlify_inj (label_inj _ e2)
    obtain rfl := named_inj (by decide +kernel) e3
    exact ⟨rfl, e4⟩

theorem optS2k_shown (s s' : Option S2K) (d : Nat) (r r' : List Act) (e3 : linesFrom d ((match s with | some s => s.acts | none => [.line []]) ++ r) =
    linesFrom d ((match s' with | some s => s.acts | none => [.line []]) ++ r')) : s = s' ∧ linesFrom d r = linesFrom d r' := by
  have none_ne : ∀ (s : S2K) (r r' : List Act), linesFrom d (s.acts ++ r) ≠ linesFrom d ([.line []] ++ r') := by
    intro s r r' h
    cases s <;> simp only [S2K.acts, S2K.title, List.cons_append, List.nil_append, linesFrom, List.cons.injEq, Prod.mk.injEq, true_and] at h <;>
      exact absurd h.1 (by decide +kernel)
  cases s with
  | none => cases s' with
    | none => simp only [List.cons_append, List.nil_append, linesFrom, List.cons.injEq, true_and] at e3; exact ⟨rfl, e3⟩
    | some s' => exact absurd e3.symm (none_ne _ _ _)
  | some s => cases s' with
    | none => exact absurd e3 (none_ne _ _ _)
    | some s' => obtain ⟨rfl, h⟩ := s2k_shown d _ _ e3; exact ⟨rfl, h⟩

theorem skesk_shown {t t' : Tag3} (d : Nat) (e : linesFrom d t.acts = linesFrom d t'.acts) : t = t' := by
  obtain ⟨v, y, s, k⟩ := t
  obtain ⟨v', y', s', k'⟩ := t'
  simp only [Tag3.acts, List.cons_append, List.nil_append, List.append_assoc, linesFrom, List.cons.injEq, Prod.mk.injEq, true_and] at e
  obtain ⟨e1, e2, e3⟩ := e
  obtain rfl := dec8_inj (label_inj _ e1)
  obtain rfl := named_inj (by decide +kernel) e2
  obtain ⟨rfl, e4⟩ := optS2k_shown s s' d _ _ e3
  cases k with
  | none => cases k' with
    | none => rfl
    | some k' => simp [linesFrom] at e4
  | some k => cases k' with
    | none => simp [linesFrom] at e4
    | some k' =>
      simp only [linesFrom, List.cons.injEq, Prod.mk.injEq, true_and, and_true] at e4
      rw [hexlify_inj (label_inj _ e4)]

/-- The lines of a key in front of others. -/
theorem key_shown {time : Nat → Bytes} (ht : Times time) {k k' : KeyPkt} (hw : WholeKey k) (hw' : WholeKey k') {l l' : List Act} (h : k.acts time = .ok l) (h' : k'.acts time = .ok l')
    (d : Nat) (r r' : List Act) (e : linesFrom d (l ++ r) = linesFrom d (l' ++ r')) : k = k' ∧ linesFrom d r = linesFrom d r' := by
  have form : ∀ (k : KeyPkt) (l : List Act), WholeKey k → k.acts time = .ok l → ∃ q,
      l = [.line (ascii "Version: " ++ dec k.version.toNat ++ ascii " - " ++ if k.version < 4 then ascii "Old" else ascii "New"), .line (ascii "Creation Time: " ++ time k.time)] ++ q ∧
      ((k.version < 4 ∧ ∃ n e, k.mpi = [n, e] ∧ q = [.line (ascii "Expiration Time (Days): " ++ dec k.expire)] ++ (if k.expire = 0 then [.line (ascii " (Never)")] else []) ++
        [.line (pkaLine k.pka), .line (ascii "RSA n: " ++ mpitohex n ++ ascii "(" ++ dec (bitsize n) ++ ascii " bits)"), .line (ascii "RSA e: " ++ mpitohex e)]) ∨
       (k.version = 4 ∧ k.expire = 0 ∧ ∃ q', q = [.line (pkaLine k.pka)] ++ q' ∧
         ((k.pka ∈ [1, 2, 3] ∧ ∃ n e, k.mpi = [n, e] ∧ q' = [mpiLine "RSA n" n, mpiLine "RSA e" e]) ∨
          (k.pka = 16 ∧ ∃ p g y, k.mpi = [p, g, y] ∧ q' = [mpiLine "ELGAMAL p" p, mpiLine "ELGAMAL g" g, mpiLine "ELGAMAL y" y]) ∨
          (k.pka = 17 ∧ ∃ p q g y, k.mpi = [p, q, g, y] ∧ q' = [mpiLine "DSA p" p, mpiLine "DSA q" q, mpiLine "DSA g" g, mpiLine "DSA y" y])))) := by
    intro k l hw h
    obtain ⟨v, t, p, m, x⟩ := k
    obtain ⟨-, hw⟩ := hw
    simp only at hw ⊢
    rcases hw with ⟨hv, hm⟩ | ⟨hv, hx, hw⟩
    · obtain ⟨n, e, rfl⟩ := list_two hm
      rw [KeyPkt.acts] at h
      simp only [if_pos hv] at h
      obtain rfl := Out.ok.inj h
      refine ⟨_, by simp only [if_pos hv, List.append_assoc]; rfl, Or.inl ⟨hv, n, e, rfl, ?_⟩⟩
      simp
    · subst hv hx
      rw [KeyPkt.acts] at h
      simp only [if_neg (show ¬ (4 : UInt8) < 4 by decide), if_true] at h
      rcases hw with ⟨hp, hm⟩ | ⟨rfl, hm⟩ | ⟨rfl, hm⟩
      · obtain ⟨n, e, rfl⟩ := list_two hm
        have hr : isRSA p = true := by clear h; revert p; decide
        simp only [if_pos hr] at h
        obtain rfl := Out.ok.inj h
        exact ⟨_, by rw [if_neg (by decide)]; simp only [List.append_assoc], Or.inr ⟨rfl, rfl, _, rfl, Or.inl ⟨hp, n, e, rfl, rfl⟩⟩⟩
      · obtain ⟨a, b, c, rfl⟩ := list_three hm
        obtain rfl := Out.ok.inj h
        exact ⟨_, by rw [if_neg (by decide)]; simp only [List.append_assoc], Or.inr ⟨rfl, rfl, _, rfl, Or.inr (Or.inl ⟨rfl, a, b, c, rfl, rfl⟩)⟩⟩
      · obtain ⟨a, b, c, f, rfl⟩ := list_four hm
        obtain rfl := Out.ok.inj h
        exact ⟨_, by rw [if_neg (by decide)]; simp only [List.append_assoc], Or.inr ⟨rfl, rfl, _, rfl, Or.inr (Or.inr ⟨rfl, a, b, c, f, rfl, rfl⟩)⟩⟩
  obtain ⟨q, rfl, hq⟩ := form k l hw h
  obtain ⟨q', rfl, hq'⟩ := form k' l' hw' h'
  obtain ⟨v, t, p, m, x⟩ := k
  obtain ⟨v', t', p', m', x'⟩ := k'
  have htt := hw.1
  have htt' := hw'.1
  simp only at hq hq' htt htt'
  clear hw hw' h h' form
  simp only [List.cons_append, List.nil_append, linesFrom, List.cons.injEq, Prod.mk.injEq, true_and] at e
  obtain ⟨e1, e2, e3⟩ := e
  obtain rfl : v = v' := by
    have o : ∀ c : UInt8, (32 : UInt8) ∉ if c < 4 then ascii "Old" else ascii "New" := by
      intro c
      split <;> decide +kernel
    exact dec8_inj (label_inj "Version: " (tail_eq (x := 32) (lab := ascii " - ") (by decide +kernel) (o _) (o _) [] (by simpa using e1)).1)
  obtain rfl := ht.inj t t' htt htt' (label_inj _ e2)
  rcases hq with ⟨hv, n, ex, rfl, rfl⟩ | ⟨hv, rfl, q1, rfl, hq⟩ <;> rcases hq' with ⟨hv', n', ex', rfl, rfl⟩ | ⟨hv', rfl, q1', rfl, hq'⟩
  · simp only [List.cons_append, List.nil_append, List.append_assoc, linesFrom, List.cons.injEq, Prod.mk.injEq, true_and] at e3
    obtain ⟨e3, e4⟩ := e3
    obtain rfl := dec_inj (label_inj _ e3)
    have e5 : linesFrom d ([.line (pkaLine p), .line (ascii "RSA n: " ++ mpitohex n ++ ascii "(" ++ dec (bitsize n) ++ ascii " bits)"), .line (ascii "RSA e: " ++ mpitohex ex)] ++ r) =
        linesFrom d ([.line (pkaLine p'), .line (ascii "RSA n: " ++ mpitohex n' ++ ascii "(" ++ dec (bitsize n') ++ ascii " bits)"), .line (ascii "RSA e: " ++ mpitohex ex')] ++ r') := by
      split at e4 <;> simpa [linesFrom] using e4
    simp only [List.cons_append, List.nil_append, linesFrom, List.cons.injEq, Prod.mk.injEq, true_and] at e5
    obtain ⟨e5, e6, e7, e8⟩ := e5
    obtain rfl := pkaLine_inj e5
    obtain rfl := mpitohex_inj (label_inj _ e7)
    have e6 := tail_eq (x := 40) (a := ascii "RSA n: " ++ mpitohex n) (b := ascii "RSA n: " ++ mpitohex n') (lab := ascii "(") (by decide +kernel) (dec_not (by decide)) (dec_not (by decide)) (ascii " bits)") (by simpa using e6)
    obtain rfl := mpitohex_inj (label_inj _ e6.1)
    exact ⟨rfl, e8⟩
  · subst hv'; exact absurd hv (by decide)
  · subst hv; exact absurd hv' (by decide)
  · simp only [List.cons_append, List.nil_append, linesFrom, List.cons.injEq, Prod.mk.injEq, true_and] at e3
    obtain ⟨e3, e4⟩ := e3
    obtain rfl := pkaLine_inj e3
    rcases hq with ⟨hp, n, ex, rfl, rfl⟩ | ⟨hp, a, b, c, rfl, rfl⟩ | ⟨hp, a, b, c, f, rfl, rfl⟩ <;>
      rcases hq' with ⟨hp', n', ex', rfl, rfl⟩ | ⟨hp', a', b', c', rfl, rfl⟩ | ⟨hp', a', b', c', f', rfl, rfl⟩
    · simp only [mpiLine, List.cons_append, List.nil_append, linesFrom, List.cons.injEq, Prod.mk.injEq, true_and] at e4
      rw [mpiText_inj e4.1, mpiText_inj e4.2.1]; exact ⟨rfl, e4.2.2⟩
    · subst hp'; exact absurd hp (by decide)
    · subst hp'; exact absurd hp (by decide)
    · subst hp; exact absurd hp' (by decide)
    · simp only [mpiLine, List.cons_append, List.nil_append, linesFrom, List.cons.injEq, Prod.mk.injEq, true_and] at e4
      rw [mpiText_inj e4.1, mpiText_inj e4.2.1, mpiText_inj e4.2.2.1]; exact ⟨rfl, e4.2.2.2⟩
    · subst hp; exact absurd hp' (by decide)
    · subst hp; exact absurd hp' (by decide)
    · subst hp; exact absurd hp' (by decide)
    · simp only [mpiLine, List.cons_append, List.nil_append, linesFrom, List.cons.injEq, Prod.mk.injEq, true_and] at e4
      rw [mpiText_inj e4.1, mpiText_inj e4.2.1, mpiText_inj e4.2.2.1, mpiText_inj e4.2.2.2.1]; exact ⟨rfl, e4.2.2.2.2⟩

theorem protected_form (t : Tag5) (b : List Act) (hw : WholeProtected t) (h : t.privateActs = .ok b) : ∃ s w f g, t.s2k = some s ∧
    b = [.line (ascii "String-to-Key Usage Conventions: " ++ dec t.s2kCon.toNat), .line (ascii "Symmetric Key Algorithm: " ++ (mapped symNames t.sym.toNat ++ (ascii " (sym " ++ (dec t.sym.toNat ++ ascii ")"))))] ++
      (s.acts ++ [.line (ascii "IV: " ++ hexlify t.iv), .line f, .down, .line (w ++ ascii ": " ++ hexlify t.secret ++ []), .up] ++ g) ∧ g = [] := by
  obtain ⟨hc, hs⟩ := hw
  have h253 : t.s2kCon > 253 := by rcases hc with hc | hc <;> rw [hc] <;> decide
  have h0 : t.s2kCon ≠ 0 := by rcases hc with hc | hc <;> rw [hc] <;> decide
  unfold Tag5.privateActs at h
  rw [if_pos h253] at h
  rcases hs with ⟨hh, ss, hs⟩ | ⟨hh, ss, c, hs⟩
  all_goals
    simp only [hs, Out.ok_bind] at h
    rw [if_pos h0] at h
    obtain rfl := Out.ok.inj h
    exact ⟨_, (if isRSA t.key.pka = true then ascii "RSA d, p, q, u" else if t.key.pka = 16 then ascii "ELGAMAL x" else if t.key.pka = 17 then ascii "DSA x" else ascii "Unknown") ++ ascii " + " ++
      (if t.s2kCon = 254 then ascii "SHA1 hash" else ascii "2 Octet Checksum"), ascii "Encrypted Data (" ++ dec t.secret.length ++ ascii " octets):", [], hs, by simp only [List.append_assoc, List.cons_append, List.nil_append, List.append_nil], rfl⟩

theorem open_form (t : Tag5) (b : List Act) (hw : WholeOpen t) (h : t.privateActs = .ok b) : ∃ (ms : List Nat) (sum : Bytes), t.secret = writeMPIs ms ++ sum ∧
    ((t.key.pka ∈ [1, 2, 3] ∧ ∃ d p q u, ms = [d, p, q, u] ∧ b = [secretLine "RSA d" d, secretLine "RSA p" p, secretLine "RSA q" q, secretLine "RSA u" u, .line (ascii "2 Octet Checksum : " ++ hexlify sum)]) ∨
     (t.key.pka = 16 ∧ ∃ x, ms = [x] ∧ b = [secretLine "ELGAMAL x" x, .line (ascii "2 Octet Checksum : " ++ hexlify sum)]) ∨
     (t.key.pka = 17 ∧ ∃ x, ms = [x] ∧ b = [secretLine "DSA x" x, .line (ascii "2 Octet Checksum : " ++ hexlify sum)])) := by
  obtain ⟨hc, -, -, -, ms, sum, hs, hl, hm, hp⟩ := hw
  have d0 : t.secret.drop 0 = writeMPIs ms ++ sum := hs
  have hsum : substr t.secret (writeMPIs ms).length 2 = .ok sum := substr_drop (rest := []) (by rw [hs]; simp) (by rw [hs]; simp) hl
  have hr := readMPIs_at ms d0 hm
  refine ⟨ms, sum, hs, ?_⟩
  unfold Tag5.privateActs at h
  rw [hc] at h
  simp only [if_neg (show ¬ (0 : UInt8) > 253 by decide), Out.ok_bind, if_neg (show ¬ (0 : UInt8) ≠ 0 by decide)] at h
  rcases hp with ⟨hp, h4⟩ | ⟨hp, h1⟩
  · obtain ⟨d, p, q, u, rfl⟩ := list_four h4
    have hrsa : isRSA t.key.pka = true := by generalize t.key.pka = x at hp; revert x; decide
    rw [if_pos hrsa] at h
    simp only [List.length_cons, List.length_nil, readMPIs] at hr
    obtain ⟨⟨x1, p1⟩, e1, hr⟩ := Out.bind_eq_ok.mp hr
    obtain ⟨⟨y1, q1⟩, hr, z1⟩ := Out.bind_eq_ok.mp hr
    obtain ⟨⟨x2, p2⟩, e2, hr⟩ := Out.bind_eq_ok.mp hr
    obtain ⟨⟨y2, q2⟩, hr, z2⟩ := Out.bind_eq_ok.mp hr
    obtain ⟨⟨x3, p3⟩, e3, hr⟩ := Out.bind_eq_ok.mp hr
    obtain ⟨⟨y3, q3⟩, hr, z3⟩ := Out.bind_eq_ok.mp hr
    obtain ⟨⟨x4, p4⟩, e4, hr⟩ := Out.bind_eq_ok.mp hr
    simp only [Out.ok_bind, Out.pure_eq, Out.ok.injEq, Prod.mk.injEq] at hr z1 z2 z3
    obtain ⟨rfl, rfl⟩ := hr
    obtain ⟨rfl, rfl⟩ := z3
    obtain ⟨rfl, rfl⟩ := z2
    obtain ⟨z0, rfl⟩ := z1
    simp only [List.cons.injEq, and_true] at z0
    obtain ⟨rfl, rfl, rfl, rfl⟩ := z0
    simp only [e1, e2, e3, e4, Out.ok_bind, Out.pure_eq, Nat.zero_add, hsum] at h
    obtain rfl := Out.ok.inj h
    exact Or.inl ⟨hp, _, _, _, _, rfl, rfl⟩
  · obtain ⟨x, rfl⟩ := list_one h1
    simp only [List.length_cons, List.length_nil, readMPIs] at hr
    obtain ⟨⟨x1, p1⟩, e1, hr⟩ := Out.bind_eq_ok.mp hr
    simp only [Out.ok_bind, Out.pure_eq, Out.ok.injEq, Prod.mk.injEq, List.cons.injEq, and_true] at hr
    obtain ⟨rfl, rfl⟩ := hr
    rcases hp with hp | hp
    · simp only [hp, if_neg (show ¬ isRSA 16 = true by decide), if_true, e1, Out.ok_bind, Out.pure_eq, Nat.zero_add, hsum] at h
      obtain rfl := Out.ok.inj h
      exact Or.inr (Or.inl ⟨hp, _, rfl, rfl⟩)
    · simp only [hp, if_neg (show ¬ isRSA 17 = true by decide), if_neg (show ¬ (17 : UInt8) = 16 by decide), if_true, e1, Out.ok_bind, Out.pure_eq, Nat.zero_add, hsum] at h
      obtain rfl := Out.ok.inj h
      exact Or.inr (Or.inr ⟨hp, _, rfl, rfl⟩)

theorem secretText_inj {l l' : String} {a b : Nat} (h : ascii l ++ ascii ": (" ++ dec (bitsize a) ++ ascii ") bits: " ++ mpitohex a = ascii l' ++ ascii ": (" ++ dec (bitsize b) ++ ascii ") bits: " ++ mpitohex b) : a = b :=
  mpitohex_inj (tail_eq (x := 32) (a := ascii l ++ ascii ": (" ++ dec (bitsize a)) (b := ascii l' ++ ascii ": (" ++ dec (bitsize b)) (lab := ascii ") bits: ") (by decide +kernel)
    (mpitohex_not (by decide)) (mpitohex_not (by decide)) [] (by simpa using h)).2

theorem secret_shown {time : Nat → Bytes} (ht : Times time) {t t' : Tag5} (hw : WholeSecret t) (hw' : WholeSecret t') {l l' : List Act} (h : t.acts time = .ok l) (h' : t'.acts time = .ok l')
    (d : Nat) (e0 : linesFrom d l = linesFrom d l') : t = t' := by
  obtain ⟨a, ha, h⟩ := Out.bind_eq_ok.mp h
  obtain ⟨b, hb, h⟩ := Out.bind_eq_ok.mp h
  obtain rfl := Out.ok.inj h
  obtain ⟨a', ha', h'⟩ := Out.bind_eq_ok.mp h'
  obtain ⟨b', hb', h'⟩ := Out.bind_eq_ok.mp h'
  obtain rfl := Out.ok.inj h'
  obtain ⟨hk, e⟩ := key_shown ht hw.1 hw'.1 ha ha' d _ _ e0
  clear e0
  obtain ⟨-, hw⟩ := hw
  obtain ⟨-, hw'⟩ := hw'
  rcases hw with hw | hw <;> rcases hw' with hw' | hw'
  · obtain ⟨s, w, f, g, hs, rfl, rfl⟩ := protected_form t b hw hb
    obtain ⟨s', w', f', g', hs', rfl, rfl⟩ := protected_form t' b' hw' hb'
    obtain ⟨k, con, sym, s2, iv, sec⟩ := t
    obtain ⟨k', con', sym', s2', iv', sec'⟩ := t'
    simp only at hk hs hs' e
    subst hk hs hs'
    simp only [List.cons_append, List.nil_append, List.append_assoc, linesFrom, List.cons.injEq, Prod.mk.injEq, true_and] at e
    obtain ⟨e1, e2, e3⟩ := e
    obtain rfl := dec8_inj (label_inj _ e1)
    obtain rfl := named_inj (by decide +kernel) e2
    obtain ⟨rfl, e4⟩ := s2k_shown d _ _ e3
    simp only [linesFrom, List.cons.injEq, Prod.mk.injEq, true_and, and_true] at e4
    obtain rfl := hexlify_inj (label_inj _ e4.1)
    have := tail_eq (x := 32) (a := w) (b := w') (lab := ascii ": ") (by decide +kernel) (hexlify_not (by decide)) (hexlify_not (by decide)) [] (by simpa using e4.2.2)
    obtain rfl := hexlify_inj this.2
    rfl
  · exfalso
    obtain ⟨s, w, f, g, hs, rfl, rfl⟩ := protected_form t b hw hb
    obtain ⟨ms, sum, -, ho⟩ := open_form t' b' hw' hb'
    have first : ∀ x : UInt8, ∀ y, (ascii "String-to-Key Usage Conventions: " ++ y).head? = some x → x = 83 := by
      intro x y h
      simpa [show ascii "String-to-Key Usage Conventions: " = 83 :: ascii "tring-to-Key Usage Conventions: " by decide +kernel] using h.symm
    rcases ho with ⟨-, d1, p1, q1, u1, -, rfl⟩ | ⟨-, x1, -, rfl⟩ | ⟨-, x1, -, rfl⟩
    all_goals
      simp only [secretLine, List.cons_append, List.nil_append, List.append_assoc, linesFrom, List.cons.injEq, Prod.mk.injEq, true_and] at e
      refine absurd (first _ _ (by rw [e.1]; rfl)) (by decide)
  · exfalso
    obtain ⟨s, w, f, g, hs, rfl, rfl⟩ := protected_form t' b' hw' hb'
    obtain ⟨ms, sum, -, ho⟩ := open_form t b hw hb
    have first : ∀ x : UInt8, ∀ y, (ascii "String-to-Key Usage Conventions: " ++ y).head? = some x → x = 83 := by
      intro x y h
      simpa [show ascii "String-to-Key Usage Conventions: " = 83 :: ascii "tring-to-Key Usage Conventions: " by decide +kernel] using h.symm
    rcases ho with ⟨-, d1, p1, q1, u1, -, rfl⟩ | ⟨-, x1, -, rfl⟩ | ⟨-, x1, -, rfl⟩
    all_goals
      simp only [secretLine, List.cons_append, List.nil_append, List.append_assoc, linesFrom, List.cons.injEq, Prod.mk.injEq, true_and] at e
      refine absurd (first _ _ (by rw [← e.1]; rfl)) (by decide)
  · obtain ⟨ms, sum, hm, ho⟩ := open_form t b hw hb
    obtain ⟨ms', sum', hm', ho'⟩ := open_form t' b' hw' hb'
    obtain ⟨c1, c2, c3, c4, -⟩ := hw
    obtain ⟨c1', c2', c3', c4', -⟩ := hw'
    have es : t.secret = t'.secret := by
      rw [hm, hm']
      rw [← hk] at ho'
      rcases ho with ⟨hp, d1, p1, q1, u1, rfl, rfl⟩ | ⟨hp, x1, rfl, rfl⟩ | ⟨hp, x1, rfl, rfl⟩ <;>
        rcases ho' with ⟨hp', d2, p2, q2, u2, rfl, rfl⟩ | ⟨hp', x2, rfl, rfl⟩ | ⟨hp', x2, rfl, rfl⟩ <;>
        first
        | (exfalso; rw [hp] at hp'; revert hp'; decide)
        | (exfalso; rw [hp'] at hp; revert hp; decide)
        | (simp only [secretLine, linesFrom, List.cons.injEq, Prod.mk.injEq, true_and, and_true] at e
           obtain ⟨e1, e2, e3, e4, e5⟩ := e
           rw [secretText_inj e1, secretText_inj e2, secretText_inj e3, secretText_inj e4, hexlify_inj (label_inj _ e5)])
        | (simp only [secretLine, linesFrom, List.cons.injEq, Prod.mk.injEq, true_and, and_true] at e
           obtain ⟨e1, e5⟩ := e
           rw [secretText_inj e1, hexlify_inj (label_inj _ e5)])
    obtain ⟨k, con, sym, s2, iv, sec⟩ := t
    obtain ⟨k', con', sym', s2', iv', sec'⟩ := t'
    simp only at hk c1 c2 c3 c4 c1' c2' c3' c4' es
    rw [hk, c1, c2, c3, c4, c1', c2', c3', c4', es]

theorem literal_shown {time : Nat → Bytes} (ht : Times time) {t t' : Tag11} (hw : t.time < 2 ^ 32 ∧ t.format ∈ [0x62, 0x74, 0x75]) (hw' : t'.time < 2 ^ 32 ∧ t'.format ∈ [0x62, 0x74, 0x75])
    (d : Nat) (e : linesFrom d (t.acts time) = linesFrom d (t'.acts time)) : t = t' := by
  obtain ⟨f, n, m, c⟩ := t
  obtain ⟨f', n', m', c'⟩ := t'
  simp only at hw hw'
  simp only [Tag11.acts, linesFrom, List.cons.injEq, Prod.mk.injEq, true_and, and_true] at e
  obtain ⟨e1, -, e2, e3, e4⟩ := e
  have hf : f = f' := by
    have key : ∀ f ∈ [(0x62 : UInt8), 0x74, 0x75], ∀ f' ∈ [(0x62 : UInt8), 0x74, 0x75], ascii "Data_Format: " ++ mapped literalNames f.toNat = ascii "Data_Format: " ++ mapped literalNames f'.toNat → f = f' := by
      decide +kernel
    exact key f hw.2 f' hw'.2 e1
  have e2 := label_inj _ e2
  have e3 := ht.inj _ _ hw.1 hw'.1 (label_inj _ e3)
  have e4 := label_inj _ e4
  subst hf e2 e3 e4
  rfl

/-! ## Subpackets -/

theorem map_lines {α : Type} (s : List α) (f : α → Bytes) (d : Nat) : linesFrom d (s.map fun c => .line (f c)) = s.map fun c => (d, f c) := by
  induction s with
  | nil => rfl
  | cons c s ih => simp [linesFrom, ih]

theorem map_shown {s s' : Bytes} {f : UInt8 → Bytes} (hf : ∀ a b, f a = f b → a = b) (d : Nat)
    (e : linesFrom d (s.map fun c => .line (f c)) = linesFrom d (s'.map fun c => .line (f c))) : s = s' := by
  rw [map_lines, map_lines] at e
  exact (List.map_inj_right (fun a b h => hf a b (Prod.mk.inj h).2)).mp e

theorem flags_shown {names : List (Nat × String)} {num : Nat → Bytes}
    (hf : ∀ i j : Fin 8, ascii "Flag - " ++ mapped names (2 ^ i.val) ++ num (2 ^ i.val) ++ ascii ")" = ascii "Flag - " ++ mapped names (2 ^ j.val) ++ num (2 ^ j.val) ++ ascii ")" → i = j)
    {s s' : Bytes} (hs : s.length = 1) (hs' : s'.length = 1) (d : Nat) (e : linesFrom d (s.flatMap (flagActs names num)) = linesFrom d (s'.flatMap (flagActs names num))) : s = s' := by
  obtain ⟨a, rfl⟩ := List.length_eq_one_iff.mp hs
  obtain ⟨b, rfl⟩ := List.length_eq_one_iff.mp hs'
  simp only [List.flatMap_cons, List.flatMap_nil, List.append_nil, flagActs] at e
  rw [map_lines _ (fun i => ascii "Flag - " ++ mapped names (2 ^ i) ++ num (2 ^ i) ++ ascii ")"), map_lines _ (fun i => ascii "Flag - " ++ mapped names (2 ^ i) ++ num (2 ^ i) ++ ascii ")")] at e
  have sub : ∀ a b : UInt8, ((List.range 8).filter fun i => a.toNat.testBit i).map (fun i => (d, ascii "Flag - " ++ mapped names (2 ^ i) ++ num (2 ^ i) ++ ascii ")")) =
      ((List.range 8).filter fun i => b.toNat.testBit i).map (fun i => (d, ascii "Flag - " ++ mapped names (2 ^ i) ++ num (2 ^ i) ++ ascii ")")) →
      ∀ i < 8, a.toNat.testBit i = true → b.toNat.testBit i = true := by
    intro a b e i hi h
    have hm : (d, ascii "Flag - " ++ mapped names (2 ^ i) ++ num (2 ^ i) ++ ascii ")") ∈
        ((List.range 8).filter fun i => a.toNat.testBit i).map (fun i => (d, ascii "Flag - " ++ mapped names (2 ^ i) ++ num (2 ^ i) ++ ascii ")")) :=
      List.mem_map.mpr ⟨i, List.mem_filter.mpr ⟨List.mem_range.mpr hi, h⟩, rfl⟩
    rw [e] at hm
    obtain ⟨j, hj, hji⟩ := List.mem_map.mp hm
    obtain ⟨hj8, hj⟩ := List.mem_filter.mp hj
    have := hf ⟨j, List.mem_range.mp hj8⟩ ⟨i, hi⟩ (Prod.mk.inj hji).2
    rw [← Fin.mk.inj_iff.mp this]
    exact hj
  have : a.toNat = b.toNat := by
    apply Nat.eq_of_testBit_eq
    intro i
    by_cases hi : i < 8
    · rw [Bool.eq_iff_iff]
      exact ⟨sub a b e i hi, sub b a e.symm i hi⟩
    · have p : 2 ^ 8 ≤ 2 ^ i := Nat.pow_le_pow_right (by omega) (by omega)
      have := a.toNat_lt
      have := b.toNat_lt
      rw [Nat.testBit_lt_two_pow (by omega), Nat.testBit_lt_two_pow (by omega)]
  rw [UInt8.toNat_inj.mp this]

theorem charName_inj (pre lab suf : Bytes) (names : List (Nat × String)) (hp : lab.getLast? = some 32) (a b : UInt8)
    (h : pre ++ mapped names a.toNat ++ lab ++ decChar a ++ suf = pre ++ mapped names b.toNat ++ lab ++ decChar b ++ suf) : a = b :=
  decChar_inj (tail_eq hp (decChar_not (by decide)) (decChar_not (by decide)) _ h).2

theorem bool_inj (l : String) {a b : Bool} (h : (ascii l ++ if a = true then ascii "True" else ascii "False") = ascii l ++ if b = true then ascii "True" else ascii "False") : a = b := by
  have h := label_inj _ h
  revert h
  cases a <;> cases b <;> decide +kernel

/-- The contents of two subpackets of the same type. -/
theorem subBody_shown (env : ShowEnv E) (ht : Times env.time) (showE : E → Out (List Act)) (wholeE : E → Prop)
    (hI : ∀ e e' l l' d, wholeE e → wholeE e' → showE e = .ok l → showE e' = .ok l' → linesFrom d l = linesFrom d l' → e = e')
    (hne : ∀ e l d, showE e = .ok l → linesFrom d l ≠ []) (b b' : SubBody E) (hty : b.type = b'.type) (hk : ∀ dt, b ≠ .keyExpire dt) (hw : WholeSub wholeE b) (hw' : WholeSub wholeE b')
    (l l' : List Act) (h : b.acts env showE = .ok l) (h' : b'.acts env showE = .ok l') (d : Nat) (e : linesFrom d l = linesFrom d l') : b = b' := by
  cases b <;> cases b' <;> first
    | (exfalso; simp [SubBody.type] at hty; done)
    | exact absurd rfl (hk _)
    | (simp only [SubBody.acts] at h h')
  case embedded.embedded x y =>
    cases x with
    | none => cases y with
      | none => rfl
      | some y =>
        simp only at h h'
        obtain rfl := Out.ok.inj h
        exact absurd e.symm (hne y l' d h')
    | some x => cases y with
      | none =>
        simp only at h h'
        obtain rfl := Out.ok.inj h'
        exact absurd e (hne x l d h)
      | some y => rw [hI x y l l' d hw hw' h h' e]
  all_goals
    obtain rfl := Out.ok.inj h
    obtain rfl := Out.ok.inj h'
  all_goals try simp only [linesFrom, List.cons.injEq, Prod.mk.injEq, true_and, and_true] at e
  case sigTime.sigTime => rw [ht.inj _ _ hw hw' (label_inj _ e)]
  case sigExpire.sigExpire a b =>
    have e := label_inj _ e
    split at e <;> split at e
    · rw [ht.inj _ _ hw hw' e]
    · exact absurd e (ht.never _)
    · exact absurd e.symm (ht.never _)
    · simp_all
  case exportable.exportable => rw [bool_inj _ e]
  case revocable.revocable => rw [bool_inj _ e]
  case primary.primary => rw [bool_inj _ e]
  case trust.trust => rw [dec8_inj (label_inj _ e.1), dec8_inj (label_inj _ e.2)]
  case regex.regex => rw [label_inj _ e]
  case placeholder.placeholder => rw [e]
  case prefSym.prefSym =>
    rw [map_shown (f := fun c => ascii "sym alg - " ++ mapped symNames c.toNat ++ ascii " (sym " ++ decChar c ++ ascii ")") (charName_inj _ _ _ _ (by decide +kernel)) d e]
  case prefHash.prefHash =>
    rw [map_shown (f := fun c => ascii "hash alg - " ++ mapped hashNames c.toNat ++ ascii " (hash " ++ decChar c ++ ascii ")") (charName_inj _ _ _ _ (by decide +kernel)) d e]
  case prefComp.prefComp =>
    rw [map_shown (f := fun c => ascii "comp alg - " ++ mapped compNames c.toNat ++ ascii " (comp " ++ decChar c ++ ascii ")") (charName_inj _ _ _ _ (by decide +kernel)) d e]
  case revKey.revKey => rw [dec8_inj (label_inj _ e.1), pkaLine_inj e.2.1, label_inj _ e.2.2]
  case issuer.issuer => rw [hexlify_inj (label_inj _ e)]
  case notation.notation fl m n fl' m' n' =>
    have hn : ∀ (fl : Bytes) (x : List Act), linesFrom d (fl.map (fun c => Act.line (ascii "Flag - " ++ mapped notationNames c.toNat ++ ascii " (not " ++ decChar c ++ ascii ")")) ++ x) =
        fl.map (fun c => (d, ascii "Flag - " ++ mapped notationNames c.toNat ++ ascii " (not " ++ decChar c ++ ascii ")")) ++ linesFrom d x := by
      intro fl x
      induction fl with
      | nil => rfl
      | cons c fl ih => simp only [List.map_cons, List.cons_append, linesFrom, ih]
    rw [hn, hn] at e
    simp only [linesFrom] at e
    have len := congrArg List.length e
    simp only [List.length_append, List.length_map, List.length_cons, List.length_nil] at len
    obtain ⟨e1, e2⟩ := List.append_inj e (by simpa using len)
    simp only [List.cons.injEq, Prod.mk.injEq, true_and, and_true] at e2
    rw [(List.map_inj_right (fun a b h => charName_inj _ _ _ _ (by decide +kernel) a b (Prod.mk.inj h).2)).mp e1, label_inj _ e2.1, label_inj _ e2.2]
  case keyServerPrefs.keyServerPrefs => rw [flags_shown (by decide +kernel) hw hw' d e]
  case keyFlags.keyFlags => rw [flags_shown (by decide +kernel) hw hw' d e]
  case features.features => rw [flags_shown (by decide +kernel) hw hw' d e]
  case prefKeyServer.prefKeyServer => rw [label_inj _ e]
  case policy.policy => rw [label_inj _ e]
  case signer.signer => rw [label_inj _ e]
  case reason.reason c w c' w' =>
    obtain rfl : c = c' := by
      have key : ∀ (c c' : UInt8), ascii "Reason " ++ dec c.toNat ++ ascii " - " ++ mapped revokeNames c.toNat = ascii "Reason " ++ dec c'.toNat ++ ascii " - " ++ mapped revokeNames c'.toNat → c = c' := by
        intro c c' h
        simp only [List.append_assoc] at h
        have h := label_inj _ h
        have first : ∀ (u v x y : Bytes), 32 ∉ u → 32 ∉ v → u ++ 32 :: x = v ++ 32 :: y → u = v := by
          intro u
          induction u with
          | nil => intro v x y _ hv h; cases v with
            | nil => rfl
            | cons z v => simp at h; exact absurd (by simp [h.1]) hv
          | cons z u ih => intro v x y hu hv h; cases v with
            | nil => simp at h; exact absurd (by simp [h.1]) hu
            | cons z' v =>
              simp only [List.cons_append, List.cons.injEq] at h
              rw [h.1, ih v x y (fun h => hu (by simp [h])) (fun h => hv (by simp [h])) h.2]
        have sp : ascii " - " = 32 :: [45, 32] := by decide +kernel
        rw [sp] at h
        exact dec8_inj (first _ _ _ _ (dec_not (by decide)) (dec_not (by decide)) h)
      exact key c c' e.1
    split at e
    · simp only [linesFrom, List.cons.injEq, Prod.mk.injEq, true_and, and_true] at e
      rw [label_inj _ e]
    · rename_i hc
      simp only [ne_eq, Decidable.not_not] at hc
      rw [hw hc, hw' hc]
  case target.target => rw [pkaLine_inj e.1, hashLine_inj e.2.1, hexlify_inj (label_inj _ e.2.2)]

/-- The title of a subpacket. -/
theorem subTitle_shown {env : ShowEnv E} {s s' : Sub E} {t : Bytes} (h : s.title env = .ok t) (h' : s'.title env = .ok t) : s.body.type = s'.body.type ∧ s.critical = s'.critical := by
  unfold Sub.title at h h'
  split at h <;> try cases h
  split at h' <;> try cases h'
  rename_i n hn _ n' hn'
  have e := Out.ok.inj h'
  simp only [List.append_assoc] at e
  have e1 := tail_eq (x := 40) (a := (if s'.critical then ascii "Critical: " else []) ++ ascii n' ++ ascii " Subpacket (sub " ++ dec s'.body.type) (lab := ascii ") (")
    (b := (if s.critical then ascii "Critical: " else []) ++ ascii n ++ ascii " Subpacket (sub " ++ dec s.body.type) (by decide +kernel)
    (u := dec (env.subSize s')) (v := dec (env.subSize s)) (dec_not (by decide)) (dec_not (by decide)) (ascii " octets)") (by simpa using e)
  have e2 := tail_eq (x := 32) (lab := ascii " Subpacket (sub ") (a := (if s'.critical then ascii "Critical: " else []) ++ ascii n') (b := (if s.critical then ascii "Critical: " else []) ++ ascii n)
    (u := dec s'.body.type) (v := dec s.body.type) (by decide +kernel) (dec_not (by decide)) (dec_not (by decide)) [] (by simpa using e1.1)
  have ht := (dec_inj e2.2).symm
  refine ⟨ht, ?_⟩
  rw [ht] at hn
  rw [hn] at hn'
  obtain rfl := Option.some.inj hn'
  have e3 := List.append_cancel_right e2.1
  have : ascii "Critical: " ≠ [] := by decide +kernel
  cases hc : s.critical <;> cases hc' : s'.critical <;> simp_all

/-- The contents of a subpacket in an area. -/
private def contents (env : ShowEnv E) (showE : E → Out (List Act)) (c : Nat) : SubBody E → Out (List Act)
  | .keyExpire dt => .ok [.line (ascii "Key Expiration Time: " ++ if dt ≠ 0 then env.time ((c + dt) % 2 ^ 32) else ascii "Never")]
  | b => b.acts env showE

private def created (c : Nat) : SubBody E → Nat
  | .sigTime t => t
  | _ => c

private theorem sub_acts_eq (env : ShowEnv E) (showE : E → Out (List Act)) (c : Nat) (s : Sub E) :
    s.acts env showE c = (do
      let title ← s.title env
      let l ← contents env showE (created c s.body) s.body
      return (created c s.body, [.line title, .down] ++ l ++ [.up])) := by
  obtain ⟨a, b⟩ := s
  unfold Sub.acts
  cases b <;> rfl

private theorem contents_eq {env : ShowEnv E} {showE : E → Out (List Act)} (c : Nat) {b : SubBody E} (h : ¬ ∃ dt, b = .keyExpire dt) : contents env showE c b = b.acts env showE := by
  unfold contents
  split
  · exact absurd ⟨_, rfl⟩ h
  · rfl

/-- The subpackets of an area. -/
theorem subs_shown (env : ShowEnv E) (ht : Times env.time) (showE : E → Out (List Act)) (wholeE : E → Prop) (hN : ∀ e l, showE e = .ok l → Neat true l)
    (hI : ∀ e e' l l' d, wholeE e → wholeE e' → showE e = .ok l → showE e' = .ok l' → linesFrom d l = linesFrom d l' → e = e')
    (hne : ∀ e l d, showE e = .ok l → linesFrom d l ≠ []) (d : Nat) (ss : List (Sub E)) : ∀ (ss' : List (Sub E)) (c : Nat) (l l' : List Act),
    (∀ x ∈ ss, WholeSub wholeE x.body) → (∀ x ∈ ss', WholeSub wholeE x.body) → subsActs env showE c ss = .ok l → subsActs env showE c ss' = .ok l' → linesFrom d l = linesFrom d l' → ss = ss' := by
  have form : ∀ (s : Sub E) (ss : List (Sub E)) (c : Nat) (l : List Act), subsActs env showE c (s :: ss) = .ok l → ∃ t b r c', s.title env = .ok t ∧ Neat true b ∧
      c' = created c s.body ∧ contents env showE c' s.body = .ok b ∧
      subsActs env showE c' ss = .ok r ∧ l = [.line t, .down] ++ b ++ [.up] ++ r := by
    intro s ss c l h
    obtain ⟨⟨c', a⟩, ha, h⟩ := Out.bind_eq_ok.mp h
    obtain ⟨r, hr, h⟩ := Out.bind_eq_ok.mp h
    obtain rfl := Out.ok.inj h
    rw [sub_acts_eq] at ha
    obtain ⟨t, ht, ha⟩ := Out.bind_eq_ok.mp ha
    obtain ⟨b, hb, ha⟩ := Out.bind_eq_ok.mp ha
    have := Out.ok.inj ha
    obtain ⟨rfl, rfl⟩ := Prod.mk.inj this
    refine ⟨t, b, r, _, ht, ?_, rfl, hb, hr, rfl⟩
    by_cases hk : ∃ dt, s.body = .keyExpire dt
    · obtain ⟨dt, hk⟩ := hk
      rw [hk] at hb
      obtain rfl := Out.ok.inj hb
      exact fun _ => rfl
    · rw [contents_eq _ hk] at hb
      exact SubBody.neat env showE hN _ _ hb
  have back : ∀ (ss : List (Sub E)) (c : Nat) (l : List Act), subsActs env showE c ss = .ok l → Back d (linesFrom d l) := by
    intro ss c l h
    cases ss with
    | nil => obtain rfl := Out.ok.inj h; intro x hx; cases hx
    | cons s ss =>
      obtain ⟨t, b, r, c', -, -, -, -, -, rfl⟩ := form s ss c l h
      intro x hx
      simp only [List.cons_append, List.nil_append, linesFrom, List.head?_cons, Option.some.injEq] at hx
      subst hx
      exact le_refl d
  induction ss with
  | nil =>
    intro ss' c l l' _ _ h h' e
    cases ss' with
    | nil => rfl
    | cons s ss' =>
      obtain ⟨t, b, r, c', -, -, -, -, -, rfl⟩ := form s ss' c l' h'
      obtain rfl := Out.ok.inj h
      simp [linesFrom] at e
  | cons s ss ih =>
    intro ss' c l l' hw hw' h h' e
    cases ss' with
    | nil =>
      obtain ⟨t, b, r, c', -, -, -, -, -, rfl⟩ := form s ss c l h
      obtain rfl := Out.ok.inj h'
      simp [linesFrom] at e
    | cons s' ss' =>
      obtain ⟨t, b, r, c1, ht1, hn, hc1, hb, hr, rfl⟩ := form s ss c l h
      obtain ⟨t', b', r', c2, ht2, hn', hc2, hb', hr', rfl⟩ := form s' ss' c l' h'
      rw [linesFrom_block hn, linesFrom_block hn', List.cons.injEq] at e
      obtain ⟨e1, e2⟩ := e
      obtain rfl := (Prod.mk.inj e1).2
      obtain ⟨e2, e3⟩ := block_split (linesFrom_deep hn (d + 1)) (linesFrom_deep hn' (d + 1)) (back _ _ _ hr) (back _ _ _ hr') e2
      obtain ⟨ety, ecrit⟩ := subTitle_shown ht1 ht2
      have eb : s.body = s'.body := by
        by_cases hk : ∃ dt, s.body = .keyExpire dt
        · obtain ⟨dt, hk⟩ := hk
          have hk' : ∃ dt', s'.body = .keyExpire dt' := by
            rw [hk] at ety
            cases hs' : s'.body <;> rw [hs'] at ety <;> simp [SubBody.type] at ety
            exact ⟨_, rfl⟩
          obtain ⟨dt', hk'⟩ := hk'
          rw [hk] at hb hc1
          rw [hk'] at hb' hc2
          simp only [contents, created] at hb hb' hc1 hc2
          obtain rfl := Out.ok.inj hb
          obtain rfl := Out.ok.inj hb'
          subst hc1 hc2
          have w := hw s (by simp)
          have w' := hw' s' (by simp)
          rw [hk] at w
          rw [hk'] at w'
          simp only [WholeSub] at w w'
          simp only [linesFrom, List.cons.injEq, Prod.mk.injEq, true_and, and_true] at e2
          have e2 := label_inj _ e2
          rw [hk, hk']
          split at e2 <;> split at e2
          · have := ht.inj _ _ (Nat.mod_lt _ (by omega)) (Nat.mod_lt _ (by omega)) e2
            congr 1
            omega
          · exact absurd e2 (ht.never _)
          · exact absurd e2.symm (ht.never _)
          · simp_all
        · have hk' : ¬ ∃ dt, s'.body = .keyExpire dt := by
            rintro ⟨dt, hk'⟩
            rw [hk'] at ety
            cases hs : s.body <;> rw [hs] at ety <;> simp [SubBody.type] at ety
            exact hk ⟨_, hs⟩
          rw [contents_eq _ hk] at hb
          rw [contents_eq _ hk'] at hb'
          exact subBody_shown env ht showE wholeE hI hne _ _ ety (fun dt h => hk ⟨dt, h⟩) (hw s (by simp)) (hw' s' (by simp)) _ _ hb hb' (d + 1) e2
      have es : s = s' := by
        obtain ⟨a, b⟩ := s
        obtain ⟨a', b'⟩ := s'
        simp only at eb ecrit
        rw [eb, ecrit]
      subst es
      have : c1 = c2 := by rw [hc1, hc2]
      subst this
      rw [ih ss' c1 r r' (fun x hx => hw x (by simp [hx])) (fun x hx => hw' x (by simp [hx])) hr hr' e3]

/-- A titled list of subpackets in front of other lines. -/
theorem subList_shown (env : ShowEnv E) (ht : Times env.time) (showE : E → Out (List Act)) (wholeE : E → Prop) (hN : ∀ e l, showE e = .ok l → Neat true l)
    (hI : ∀ e e' l l' d, wholeE e → wholeE e' → showE e = .ok l → showE e' = .ok l' → linesFrom d l = linesFrom d l' → e = e')
    (hne : ∀ e l d, showE e = .ok l → linesFrom d l ≠ []) (d : Nat) (title : String) (ss ss' : List (Sub E)) (l l' : List Act)
    (hw : ∀ x ∈ ss, WholeSub wholeE x.body) (hw' : ∀ x ∈ ss', WholeSub wholeE x.body) (h : subListActs env showE title ss = .ok l) (h' : subListActs env showE title ss' = .ok l')
    (r r' : List Act) (hr : Back d (linesFrom d r)) (hr' : Back d (linesFrom d r')) (ne : ∀ y, (linesFrom d r).head? ≠ some (y, ascii title)) (ne' : ∀ y, (linesFrom d r').head? ≠ some (y, ascii title))
    (e : linesFrom d (l ++ r) = linesFrom d (l' ++ r')) : ss = ss' ∧ linesFrom d r = linesFrom d r' := by
  have form : ∀ (ss : List (Sub E)) (l : List Act), subListActs env showE title ss = .ok l → (ss = [] ∧ l = []) ∨ ∃ a, ss ≠ [] ∧ Neat true a ∧ subsActs env showE 0 ss = .ok a ∧ l = [.line (ascii title), .down] ++ a ++ [.up] := by
    intro ss l h
    unfold subListActs at h
    split at h
    · exact Or.inl ⟨rfl, (Out.ok.inj h).symm⟩
    · rename_i hs
      obtain ⟨a, ha, h⟩ := Out.bind_eq_ok.mp h
      exact Or.inr ⟨a, fun h0 => hs h0, subs_neat env showE hN _ _ _ ha, ha, (Out.ok.inj h).symm⟩
  rcases form ss l h with ⟨rfl, rfl⟩ | ⟨a, h0, hn, ha, rfl⟩ <;> rcases form ss' l' h' with ⟨rfl, rfl⟩ | ⟨a', h0', hn', ha', rfl⟩
  · exact ⟨rfl, e⟩
  · rw [linesFrom_block hn'] at e
    exact absurd (by simp only [List.nil_append] at e; rw [e]; rfl) (ne d)
  · rw [linesFrom_block hn] at e
    exact absurd (by simp only [List.nil_append] at e; rw [← e]; rfl) (ne' d)
  · rw [linesFrom_block hn, linesFrom_block hn', List.cons.injEq] at e
    obtain ⟨e2, e3⟩ := block_split (linesFrom_deep hn (d + 1)) (linesFrom_deep hn' (d + 1)) hr hr' e.2
    exact ⟨subs_shown env ht showE wholeE hN hI hne (d + 1) ss ss' 0 a a' hw hw' ha ha' e2, e3⟩

theorem sigType_inj {a b : UInt8} (h : ascii "Signature Type: " ++ (mapped sigNames a.toNat ++ (ascii " (type 0x" ++ (makehex a.toNat 2 false ++ ascii ")"))) =
    ascii "Signature Type: " ++ (mapped sigNames b.toNat ++ (ascii " (type 0x" ++ (makehex b.toNat 2 false ++ ascii ")")))) : a = b := by
  have h : mapped sigNames a.toNat ++ ascii " (type 0x" ++ makehex a.toNat 2 false ++ ascii ")" = mapped sigNames b.toNat ++ ascii " (type 0x" ++ makehex b.toNat 2 false ++ ascii ")" := by
    simpa using h
  have hx : ∀ v : Nat, (120 : UInt8) ∉ makehex v 2 false := by
    intro v hm
    rcases makehex_digit hm with ⟨-, h⟩ | ⟨-, h⟩ <;> exact absurd h (by decide)
  have h := (tail_eq (x := 120) (by decide +kernel) (hx _) (hx _) _ h).2
  have e1 := unhexlify_makehex a.toNat 1 false
  rw [show 2 * 1 = 2 from rfl, h, show (2 : Nat) = 2 * 1 from rfl, unhexlify_makehex] at e1
  have := congrArg num (Out.ok.inj e1)
  rw [num_be, num_be] at this
  have := a.toNat_lt
  have := b.toNat_lt
  apply UInt8.toNat_inj.mp
  omega

theorem sig4_shown (env : ShowEnv E) (ht : Times env.time) (showE : E → Out (List Act)) (wholeE : E → Prop) (hN : ∀ e l, showE e = .ok l → Neat true l)
    (hI : ∀ e e' l l' d, wholeE e → wholeE e' → showE e = .ok l → showE e' = .ok l' → linesFrom d l = linesFrom d l' → e = e')
    (hne : ∀ e l d, showE e = .ok l → linesFrom d l ≠ []) (d : Nat) (s s' : Tag2 E) (hw : WholeSig wholeE s) (hw' : WholeSig wholeE s') (hv : s.version = 4) (hv' : s'.version = 4) (l l' : List Act)
    (h : s.acts env showE = .ok l) (h' : s'.acts env showE = .ok l') (e : linesFrom d l = linesFrom d l') : s = s' := by
  have form : ∀ (s : Tag2 E) (l : List Act), WholeSig wholeE s → s.version = 4 → s.acts env showE = .ok l → ∃ a u m, subListActs env showE "Hashed Sub:" s.hashed = .ok a ∧
      subListActs env showE "Unhashed Sub:" s.unhashed = .ok u ∧
      l = [.line (ascii "Version: " ++ dec s.version.toNat),
        .line (ascii "Signature Type: " ++ (mapped sigNames s.type.toNat ++ (ascii " (type 0x" ++ (makehex s.type.toNat 2 false ++ ascii ")")))), .line (pkaLine s.pka), .line (hashLine s.hash)] ++
        (a ++ (u ++ ([.line (ascii "Hash Left 16 Bits: " ++ hexlify s.left16)] ++ m))) ∧
      ((∃ x, s.pka ∈ [1, 2, 3] ∧ s.mpi = [x] ∧ m = [mpiLine "RSA m**d mod n" x]) ∨ ∃ x y, s.pka = 17 ∧ s.mpi = [x, y] ∧ m = [mpiLine "DSA r" x, mpiLine "DSA s" y]) := by
    intro s l hw h4 h
    obtain ⟨-, hm, -⟩ := hw
    unfold Tag2.acts at h
    obtain ⟨mid, hmid, h⟩ := Out.bind_eq_ok.mp h
    obtain ⟨m, hm', h⟩ := Out.bind_eq_ok.mp h
    obtain rfl := Out.ok.inj h
    rw [if_neg (by rw [h4]; decide), if_pos h4] at hmid
    obtain ⟨a, ha, hmid⟩ := Out.bind_eq_ok.mp hmid
    obtain ⟨u, hu, hmid⟩ := Out.bind_eq_ok.mp hmid
    obtain rfl := Out.ok.inj hmid
    refine ⟨a, u, m, ha, hu, by simp only [List.append_assoc, List.cons_append, List.nil_append], ?_⟩
    rcases hm with ⟨hp, hm⟩ | ⟨hp, hm⟩
    · obtain ⟨x, hx⟩ := list_one hm
      have hr : isRSA s.pka = true := by
        revert hp; generalize s.pka = p; revert p; decide
      rw [if_pos hr, hx] at hm'
      exact Or.inl ⟨x, hp, hx, (Out.ok.inj hm').symm⟩
    · obtain ⟨x, y, hx⟩ := list_two hm
      rw [if_neg (by rw [hp]; decide), if_pos hp, hx] at hm'
      exact Or.inr ⟨x, y, hp, hx, (Out.ok.inj hm').symm⟩
  obtain ⟨a, u, m, ha, hu, rfl, hm⟩ := form s l hw hv h
  obtain ⟨a', u', m', ha', hu', rfl, hm'⟩ := form s' l' hw' hv' h'
  simp only [List.cons_append, List.nil_append, linesFrom, List.cons.injEq, Prod.mk.injEq, true_and] at e
  obtain ⟨e1, e2, e3, e4, e5⟩ := e
  have ev := dec8_inj (label_inj _ e1)
  have et : s.type = s'.type := sigType_inj e2
  have ep := pkaLine_inj e3
  have eh := hashLine_inj e4
  have hback : ∀ (x : Bytes) (m : List Act), Back d (linesFrom d (.line x :: m)) := by
    intro x m y hy
    simp only [linesFrom, List.head?_cons, Option.some.injEq] at hy
    subst hy
    exact le_refl d
  have ubk : ∀ (ss : List (Sub E)) (u : List Act) (x : Bytes) (m : List Act), subListActs env showE "Unhashed Sub:" ss = .ok u →
      (∃ r, u ++ .line x :: m = .line (ascii "Unhashed Sub:") :: r) ∨ u ++ .line x :: m = .line x :: m := by
    intro ss u x m h
    unfold subListActs at h
    split at h
    · obtain rfl := Out.ok.inj h; exact Or.inr rfl
    · obtain ⟨b, -, h⟩ := Out.bind_eq_ok.mp h
      obtain rfl := Out.ok.inj h
      exact Or.inl ⟨_, rfl⟩
  have left_ne : ∀ (t : String) (x : Bytes), ((ascii t)[4]? ≠ some 32 ∨ (ascii t).length < 5) → ascii t ≠ ascii "Hash Left 16 Bits: " ++ x := by
    intro t x ht h
    rw [h] at ht
    have e : (ascii "Hash Left 16 Bits: " ++ x)[4]? = some 32 := by
      rw [List.getElem?_append_left (by decide +kernel)]; decide +kernel
    have el : (ascii "Hash Left 16 Bits: ").length = 19 := by decide +kernel
    rw [List.length_append, el] at ht
    rcases ht with ht | ht
    · exact ht e
    · omega
  have hb1 : ∀ (ss : List (Sub E)) (u : List Act) (x : Bytes) (m : List Act), subListActs env showE "Unhashed Sub:" ss = .ok u →
      Back d (linesFrom d (u ++ .line (ascii "Hash Left 16 Bits: " ++ x) :: m)) ∧ ∀ y, (linesFrom d (u ++ .line (ascii "Hash Left 16 Bits: " ++ x) :: m)).head? ≠ some (y, ascii "Hashed Sub:") := by
    intro ss u x m h
    rcases ubk ss u _ m h with ⟨r, hr⟩ | hr <;> rw [hr]
    · refine ⟨hback _ _, fun y h => ?_⟩
      simp only [linesFrom, List.head?_cons, Option.some.injEq, Prod.mk.injEq] at h
      exact absurd h.2 (by decide +kernel)
    · refine ⟨hback _ _, fun y h => ?_⟩
      simp only [linesFrom, List.head?_cons, Option.some.injEq, Prod.mk.injEq] at h
      exact left_ne "Hashed Sub:" x (Or.inl (by decide +kernel)) h.2.symm
  obtain ⟨ehs, e6⟩ := subList_shown env ht showE wholeE hN hI hne d "Hashed Sub:" _ _ a a' (fun x hx => hw.2.2 x (by simp [hx])) (fun x hx => hw'.2.2 x (by simp [hx])) ha ha' _ _
    (hb1 _ _ _ _ hu).1 (hb1 _ _ _ _ hu').1 (hb1 _ _ _ _ hu).2 (hb1 _ _ _ _ hu').2 e5
  have hl : ∀ (x : Bytes) (m : List Act) (y : Nat), (linesFrom d (.line (ascii "Hash Left 16 Bits: " ++ x) :: m)).head? ≠ some (y, ascii "Unhashed Sub:") := by
    intro x m y h
    simp only [linesFrom, List.head?_cons, Option.some.injEq, Prod.mk.injEq] at h
    exact left_ne "Unhashed Sub:" x (Or.inl (by decide +kernel)) h.2.symm
  obtain ⟨eus, e7⟩ := subList_shown env ht showE wholeE hN hI hne d "Unhashed Sub:" _ _ u u' (fun x hx => hw.2.2 x (by simp [hx])) (fun x hx => hw'.2.2 x (by simp [hx])) hu hu' _ _
    (hback _ _) (hback _ _) (hl _ _) (hl _ _) e6
  simp only [linesFrom, List.cons.injEq, Prod.mk.injEq, true_and] at e7
  have el := hexlify_inj (label_inj _ e7.1)
  have em : s.mpi = s'.mpi := by
    have e8 := e7.2
    rcases hm with ⟨x, hp, hx, rfl⟩ | ⟨x, y, hp, hx, rfl⟩ <;> rcases hm' with ⟨x', hp', hx', rfl⟩ | ⟨x', y', hp', hx', rfl⟩
    · simp only [mpiLine, linesFrom, List.cons.injEq, Prod.mk.injEq, true_and, and_true] at e8
      rw [hx, hx', mpiText_inj e8]
    · rw [ep, hp'] at hp; exact absurd hp (by decide)
    · rw [← ep, hp] at hp'; exact absurd hp' (by decide)
    · simp only [mpiLine, linesFrom, List.cons.injEq, Prod.mk.injEq, true_and, and_true] at e8
      rw [hx, hx', mpiText_inj e8.1, mpiText_inj e8.2]
  have fields : ∀ s : Tag2 E, WholeSig wholeE s → s.version = 4 → s.time = 0 ∧ s.keyid = [] := by
    intro s hw hv
    rcases hw.1 with ⟨-, h⟩ | ⟨h, -⟩
    · exact h
    · rw [hv] at h; exact absurd h (by decide)
  obtain ⟨w1, w2⟩ := fields s hw hv
  obtain ⟨w1', w2'⟩ := fields s' hw' hv'
  obtain ⟨v, ty, p, ha, mp, le, ti, ke, hs, us⟩ := s
  obtain ⟨v', ty', p', ha', mp', le', ti', ke', hs', us'⟩ := s'
  simp only at ev et ep eh ehs eus el em w1 w2 w1' w2'
  subst ev et ep eh ehs eus el em w1 w2 w1' w2'
  rfl

/-- The old versions. -/
theorem sig3_shown (env : ShowEnv E) (ht : Times env.time) (showE : E → Out (List Act)) (wholeE : E → Prop) (d : Nat) (s s' : Tag2 E) (hw : WholeSig wholeE s)
    (hw' : WholeSig wholeE s') (hv : s.version < 4) (hv' : s'.version < 4) (l l' : List Act)
    (h : s.acts env showE = .ok l) (h' : s'.acts env showE = .ok l') (e : linesFrom d l = linesFrom d l') : s = s' := by
  have form : ∀ (s : Tag2 E) (l : List Act), WholeSig wholeE s → s.version < 4 → s.acts env showE = .ok l → ∃ m,
      l = [.line (ascii "Version: " ++ dec s.version.toNat), .line (ascii "Hashed Material:"), .down,
        .line (ascii "Signature Type: " ++ (mapped sigNames s.type.toNat ++ (ascii " (type 0x" ++ (makehex s.type.toNat 2 false ++ ascii ")")))),
        .line (ascii "Creation Time: " ++ env.time s.time), .line (ascii "Signer's Key ID: " ++ hexlify s.keyid), .line (pkaLine s.pka), .line (hashLine s.hash), .up,
        .line (ascii "Hash Left 16 Bits: " ++ hexlify s.left16)] ++ m ∧
      ((∃ x, s.pka ∈ [1, 2, 3] ∧ s.mpi = [x] ∧ m = [mpiLine "RSA m**d mod n" x]) ∨ ∃ x y, s.pka = 17 ∧ s.mpi = [x, y] ∧ m = [mpiLine "DSA r" x, mpiLine "DSA s" y]) := by
    intro s l hw h4 h
    obtain ⟨-, hm, -⟩ := hw
    unfold Tag2.acts at h
    obtain ⟨mid, hmid, h⟩ := Out.bind_eq_ok.mp h
    obtain ⟨m, hm', h⟩ := Out.bind_eq_ok.mp h
    obtain rfl := Out.ok.inj h
    rw [if_pos h4] at hmid
    obtain rfl := Out.ok.inj hmid
    refine ⟨m, by simp only [List.append_assoc, List.cons_append, List.nil_append], ?_⟩
    rcases hm with ⟨hp, hm⟩ | ⟨hp, hm⟩
    · obtain ⟨x, hx⟩ := list_one hm
      have hr : isRSA s.pka = true := by
        revert hp; generalize s.pka = p; revert p; decide
      rw [if_pos hr, hx] at hm'
      exact Or.inl ⟨x, hp, hx, (Out.ok.inj hm').symm⟩
    · obtain ⟨x, y, hx⟩ := list_two hm
      rw [if_neg (by rw [hp]; decide), if_pos hp, hx] at hm'
      exact Or.inr ⟨x, y, hp, hx, (Out.ok.inj hm').symm⟩
  obtain ⟨m, rfl, hm⟩ := form s l hw hv h
  obtain ⟨m', rfl, hm'⟩ := form s' l' hw' hv' h'
  simp only [List.cons_append, List.nil_append, linesFrom, List.cons.injEq, Prod.mk.injEq, true_and] at e
  obtain ⟨e1, e2, e3, e4, e5, e6, e7, e8⟩ := e
  have ev := dec8_inj (label_inj _ e1)
  have et := sigType_inj e2
  have fields : ∀ s : Tag2 E, WholeSig wholeE s → s.version < 4 → s.time < 2 ^ 32 ∧ s.hashed = [] ∧ s.unhashed = [] := by
    intro s hw hv
    rcases hw.1 with ⟨h, -⟩ | ⟨-, h⟩
    · rw [h] at hv; exact absurd hv (by decide)
    · exact h
  obtain ⟨w1, w2, w3⟩ := fields s hw hv
  obtain ⟨w1', w2', w3'⟩ := fields s' hw' hv'
  have etime := ht.inj _ _ w1 w1' (label_inj _ e3)
  have ekid := hexlify_inj (label_inj _ e4)
  have ep := pkaLine_inj e5
  have eh := hashLine_inj e6
  have el := hexlify_inj (label_inj _ e7)
  have em : s.mpi = s'.mpi := by
    rcases hm with ⟨x, hp, hx, rfl⟩ | ⟨x, y, hp, hx, rfl⟩ <;> rcases hm' with ⟨x', hp', hx', rfl⟩ | ⟨x', y', hp', hx', rfl⟩
    · simp only [mpiLine, linesFrom, List.cons.injEq, Prod.mk.injEq, true_and, and_true] at e8
      rw [hx, hx', mpiText_inj e8]
    · rw [ep, hp'] at hp; exact absurd hp (by decide)
    · rw [← ep, hp] at hp'; exact absurd hp' (by decide)
    · simp only [mpiLine, linesFrom, List.cons.injEq, Prod.mk.injEq, true_and, and_true] at e8
      rw [hx, hx', mpiText_inj e8.1, mpiText_inj e8.2]
  obtain ⟨v, ty, p, ha, mp, le, ti, ke, hs, us⟩ := s
  obtain ⟨v', ty', p', ha', mp', le', ti', ke', hs', us'⟩ := s'
  simp only at ev et ep eh etime ekid el em w2 w3 w2' w3'
  subst ev et ep eh etime ekid el em w2 w3 w2' w3'
  rfl

theorem sigLines_shown (env : ShowEnv E) (ht : Times env.time) (showE : E → Out (List Act)) (wholeE : E → Prop) (hN : ∀ e l, showE e = .ok l → Neat true l)
    (hI : ∀ e e' l l' d, wholeE e → wholeE e' → showE e = .ok l → showE e' = .ok l' → linesFrom d l = linesFrom d l' → e = e')
    (hne : ∀ e l d, showE e = .ok l → linesFrom d l ≠ []) (d : Nat) (s s' : Tag2 E) (hw : WholeSig wholeE s) (hw' : WholeSig wholeE s') (l l' : List Act)
    (h : s.acts env showE = .ok l) (h' : s'.acts env showE = .ok l') (e : linesFrom d l = linesFrom d l') : s = s' := by
  have first : ∀ (s : Tag2 E) (l : List Act), s.acts env showE = .ok l → ∃ r, l = .line (ascii "Version: " ++ dec s.version.toNat) :: r := by
    intro s l h
    unfold Tag2.acts at h
    obtain ⟨mid, -, h⟩ := Out.bind_eq_ok.mp h
    obtain ⟨m, -, h⟩ := Out.bind_eq_ok.mp h
    obtain rfl := Out.ok.inj h
    exact ⟨_, rfl⟩
  have ev : s.version = s'.version := by
    obtain ⟨r, rfl⟩ := first s l h
    obtain ⟨r', rfl⟩ := first s' l' h'
    simp only [linesFrom, List.cons.injEq, Prod.mk.injEq, true_and] at e
    exact dec8_inj (label_inj _ e.1)
  rcases hw.1 with ⟨hv, -⟩ | ⟨hv, -⟩
  · exact sig4_shown env ht showE wholeE hN hI hne d s s' hw hw' hv (ev ▸ hv) l l' h h' e
  · exact sig3_shown env ht showE wholeE d s s' hw hw' hv (ev ▸ hv) l l' h h' e

/-- An embedded signature, however deep. -/
theorem embedded_shown (env : (n : Nat) → ShowEnv (SigAt n)) (ht : ∀ n, Times (env n).time) (n : Nat) : ∀ (s s' : SigAt n) (l l' : List Act) (d : Nat),
    WholeSigAt n s → WholeSigAt n s' → showSig env n s = .ok l → showSig env n s' = .ok l' → linesFrom d l = linesFrom d l' → s = s' := by
  induction n with
  | zero => intro s; exact s.elim
  | succ n ih =>
    intro s s' l l' d hw hw' h h' e
    obtain ⟨a, ha, h⟩ := Out.bind_eq_ok.mp h
    obtain rfl := Out.ok.inj h
    obtain ⟨a', ha', h'⟩ := Out.bind_eq_ok.mp h'
    obtain rfl := Out.ok.inj h'
    have hn := Tag2.neat (ok := true) (env n) (showSig env n) (showSig_neat env n) s a ha
    have hn' := Tag2.neat (ok := true) (env n) (showSig env n) (showSig_neat env n) s' a' ha'
    have e : linesFrom d ([.line (ascii "New: Signature (Tag 2)"), .down] ++ a ++ [.up] ++ []) = linesFrom d ([.line (ascii "New: Signature (Tag 2)"), .down] ++ a' ++ [.up] ++ []) := by
      simpa using e
    rw [linesFrom_block hn, linesFrom_block hn', List.cons.injEq] at e
    have e2 : linesFrom (d + 1) a = linesFrom (d + 1) a' := by simpa [linesFrom] using e.2
    refine sigLines_shown (env n) (ht n) (showSig env n) (WholeSigAt n) (showSig_neat env n) (fun e e' l l' d => ih e e' l l' d) ?_ (d + 1) s s' hw hw' a a' ha ha' e2
    intro e l d h
    cases n with
    | zero => exact e.elim
    | succ n =>
      obtain ⟨b, -, h⟩ := Out.bind_eq_ok.mp h
      obtain rfl := Out.ok.inj h
      simp [linesFrom]

theorem embedded_line (env : (n : Nat) → ShowEnv (SigAt n)) (n : Nat) (s : SigAt n) (l : List Act) (d : Nat) (h : showSig env n s = .ok l) : linesFrom d l ≠ [] := by
  cases n with
  | zero => exact s.elim
  | succ n =>
    obtain ⟨b, -, h⟩ := Out.bind_eq_ok.mp h
    obtain rfl := Out.ok.inj h
    simp [linesFrom]

/-! ## Packets -/

theorem body_shown (env : (n : Nat) → ShowEnv (SigAt n)) (ht : ∀ n, Times (env n).time) (n : Nat) (showC : UInt8 → Bytes → Out (List Act)) (b b' : Body (SigAt n)) (hty : b.tag = b'.tag)
    (hp : ∀ k s, b = .priv k s → k < 4) (hp' : ∀ k s, b' = .priv k s → k < 4)
    (hw : Whole (WholeSigAt n) b) (hw' : Whole (WholeSigAt n) b') (l l' : List Act) (h : b.acts (env n) (showSig env n) showC = .ok l) (h' : b'.acts (env n) (showSig env n) showC = .ok l') (d : Nat)
    (e : linesFrom d l = linesFrom d l') : b = b' := by
  have priv_ne : ∀ k : Nat, k < 4 → ∀ t < 20, 60 + k ≠ t := by intro k hk t ht; omega
  cases b <;> cases b' <;> first
    | (exfalso; simp [Body.tag] at hty; done)
    | (exfalso; simp only [Body.tag] at hty; omega)
    | skip
  case compressed.compressed => exact hw.elim
  case userAttr.userAttr => exact hw.elim
  case pkesk.pkesk => rw [pkesk_shown hw hw' h h' d e]
  case sig.sig => rw [sigLines_shown (env n) (ht n) (showSig env n) (WholeSigAt n) (showSig_neat env n) (embedded_shown env ht n) (embedded_line env n) d _ _ hw hw' l l' h h' e]
  case secretKey.secretKey => rw [secret_shown (ht n) hw hw' h h' d e]
  case secretSubkey.secretSubkey => rw [secret_shown (ht n) hw hw' h h' d e]
  case publicKey.publicKey => rw [(key_shown (ht n) hw hw' h h' d [] [] (by simpa using e)).1]
  case publicSubkey.publicSubkey => rw [(key_shown (ht n) hw hw' h h' d [] [] (by simpa using e)).1]
  all_goals
    obtain rfl := Out.ok.inj h
    obtain rfl := Out.ok.inj h'
  case skesk.skesk => rw [skesk_shown d e]
  case onePass.onePass => rw [onePass_shown d e]
  case literal.literal => rw [literal_shown (ht n) hw hw' d e]
  all_goals simp only [linesFrom, List.cons.injEq, Prod.mk.injEq, true_and, and_true] at e
  case symEnc.symEnc x y =>
    have := tail_eq (x := 32) (a := ascii "Encrypted Data (" ++ dec x.length) (b := ascii "Encrypted Data (" ++ dec y.length) (lab := ascii " octets): ") (by decide +kernel) (hexlify_not (by decide)) (hexlify_not (by decide)) [] (by simpa using e)
    rw [hexlify_inj this.2]
  case marker.marker => rw [e]
  case trust.trust x y =>
    simp only [List.append_assoc] at e
    have e := label_inj _ e
    have first : ∀ (u v x y : Bytes), 32 ∉ u → 32 ∉ v → u ++ 32 :: x = v ++ 32 :: y → x = y := by
      intro u
      induction u with
      | nil => intro v x y _ hv h; cases v with
        | nil => simpa using h
        | cons z v => simp at h; exact absurd (by simp [h.1]) hv
      | cons z u ih => intro v x y hu hv h; cases v with
        | nil => simp at h; exact absurd (by simp [h.1]) hu
        | cons z' v =>
          simp only [List.cons_append, List.cons.injEq] at h
          exact ih v x y (fun h => hu (by simp [h])) (fun h => hv (by simp [h])) h.2
    have sp : ascii " octets): " = 32 :: ascii "octets): " := by decide +kernel
    rw [sp] at e
    have := first _ _ _ _ (dec_not (by decide)) (dec_not (by decide)) e
    rw [label_inj "octets): " this]
  case userId.userId => rw [label_inj _ e]
  case seip.seip v x v' y =>
    have := tail_eq (x := 32) (a := ascii "Encrypted Data (" ++ dec x.length) (b := ascii "Encrypted Data (" ++ dec y.length) (lab := ascii " octets): ") (by decide +kernel) (hexlify_not (by decide)) (hexlify_not (by decide)) [] (by simpa using e.2)
    rw [hexlify_inj this.2, dec8_inj (label_inj _ e.1)]
  case mdc.mdc => rw [label_inj _ e]
  case priv.priv k x k' y =>
    simp only [Body.tag] at hty
    rw [hexlify_inj e, show k = k' by omega]

/-- The title of a packet. -/
theorem title_shown {f f' : Fmt} {t t' : Nat} {p p' : Bool} {x : Bytes} (h : pktTitle f t p = .ok x) (h' : pktTitle f' t' p' = .ok x) :
    f = f' ∧ t = t' ∧ ((t = 8 ∨ t = 9 ∨ t = 11 ∨ t = 18) → p = p') := by
  have known : ∀ t, (∃ n, tagNames.lookup t = some n) → t ∈ tagNames.map Prod.fst := by
    intro t ⟨n, hn⟩
    have : ∀ l : List (Nat × String), l.lookup t = some n → t ∈ l.map Prod.fst := by
      intro l
      induction l with
      | nil => intro h; cases h
      | cons a l ih =>
        obtain ⟨k, v⟩ := a
        intro h
        rw [List.lookup_cons] at h
        split at h
        · rename_i he; simp at he; simp [he]
        · simp [ih h]
    exact this _ hn
  have ht : t ∈ tagNames.map Prod.fst := by
    unfold pktTitle at h; split at h
    · exact known _ ⟨_, by assumption⟩
    · cases h
  have ht' : t' ∈ tagNames.map Prod.fst := by
    unfold pktTitle at h'; split at h'
    · exact known _ ⟨_, by assumption⟩
    · cases h'
  have all : ∀ t ∈ tagNames.map Prod.fst, ∀ t' ∈ tagNames.map Prod.fst, ∀ p p' : Bool, ∀ f ∈ [Fmt.new, .old], ∀ f' ∈ [Fmt.new, .old], pktTitle f t p = pktTitle f' t' p' →
      f = f' ∧ t = t' ∧ ((t = 8 ∨ t = 9 ∨ t = 11 ∨ t = 18) → p = p') := by decide +kernel
  exact all t ht t' ht' p p' f (by cases f <;> simp) f' (by cases f' <;> simp) (h.trans h'.symm)

theorem pkt_form {env : ShowEnv E} {showE : E → Out (List Act)} {showC : UInt8 → Bytes → Out (List Act)} {p : Pkt E} {l : List Act} (h : p.acts env showE showC = .ok l) :
    ∃ t a, pktTitle p.fmt p.body.tag p.part = .ok t ∧ p.body.acts env showE showC = .ok a ∧ l = [.line t, .down] ++ a ++ [.up] := by
  obtain ⟨t, ht, h⟩ := Out.bind_eq_ok.mp h
  obtain ⟨a, ha, h⟩ := Out.bind_eq_ok.mp h
  exact ⟨t, a, ht, ha, (Out.ok.inj h).symm⟩

/-- Everything in the packet is shown. Only packets that carry data can have partial lengths. -/
def Shows (n : Nat) (p : Pkt (SigAt n)) : Prop := Whole (WholeSigAt n) p.body ∧ (p.part = true → p.body.tag = 8 ∨ p.body.tag = 9 ∨ p.body.tag = 11 ∨ p.body.tag = 18)

theorem pkts_shown (env : (n : Nat) → ShowEnv (SigAt n)) (ht : ∀ n, Times (env n).time) (n : Nat) (showC : UInt8 → Bytes → Out (List Act)) (d : Nat) (ps : List (Pkt (SigAt n))) :
    ∀ (qs : List (Pkt (SigAt n))) (l l' : List Act), (∀ p ∈ ps, Shows n p) → (∀ q ∈ qs, Shows n q) →
      pktsActs (Pkt.acts (env n) (showSig env n) showC) ps = .ok l → pktsActs (Pkt.acts (env n) (showSig env n) showC) qs = .ok l' → linesFrom d l = linesFrom d l' → ps = qs := by
  have form : ∀ (p : Pkt (SigAt n)) (ps : List (Pkt (SigAt n))) (l : List Act), Shows n p → pktsActs (Pkt.acts (env n) (showSig env n) showC) (p :: ps) = .ok l →
      ∃ t a r, pktTitle p.fmt p.body.tag p.part = .ok t ∧ p.body.acts (env n) (showSig env n) showC = .ok a ∧ Neat true a ∧
        pktsActs (Pkt.acts (env n) (showSig env n) showC) ps = .ok r ∧ l = [.line t, .down] ++ a ++ [.up] ++ r := by
    intro p ps l hp h
    obtain ⟨x, hx, h⟩ := Out.bind_eq_ok.mp h
    obtain ⟨r, hr, h⟩ := Out.bind_eq_ok.mp h
    obtain rfl := Out.ok.inj h
    obtain ⟨t, a, ht, ha, rfl⟩ := pkt_form hx
    refine ⟨t, a, r, ht, ha, Body.neat (env n) (showSig env n) _ (showSig_neat env n) _ ?_ (Or.inl rfl) _ ha, hr, rfl⟩
    intro c x l hb
    have hw := hp.1
    rw [hb] at hw
    exact hw.elim
  have back : ∀ (ps : List (Pkt (SigAt n))) (l : List Act), (∀ p ∈ ps, Shows n p) → pktsActs (Pkt.acts (env n) (showSig env n) showC) ps = .ok l → Back d (linesFrom d l) := by
    intro ps l hw h
    cases ps with
    | nil => obtain rfl := Out.ok.inj h; intro x hx; cases hx
    | cons p ps =>
      obtain ⟨t, a, r, -, -, -, -, rfl⟩ := form p ps l (hw p (by simp)) h
      intro x hx
      simp only [List.cons_append, List.nil_append, linesFrom, List.head?_cons, Option.some.injEq] at hx
      subst hx
      exact le_refl d
  induction ps with
  | nil =>
    intro qs l l' _ hq h h' e
    cases qs with
    | nil => rfl
    | cons q qs =>
      obtain ⟨t, a, r, -, -, -, -, rfl⟩ := form q qs l' (hq q (by simp)) h'
      obtain rfl := Out.ok.inj h
      simp [linesFrom] at e
  | cons p ps ih =>
    intro qs l l' hp hq h h' e
    cases qs with
    | nil =>
      obtain ⟨t, a, r, -, -, -, -, rfl⟩ := form p ps l (hp p (by simp)) h
      obtain rfl := Out.ok.inj h'
      simp [linesFrom] at e
    | cons q qs =>
      obtain ⟨t, a, r, h1, ha, hn, hr, rfl⟩ := form p ps l (hp p (by simp)) h
      obtain ⟨t', a', r', h1', ha', hn', hr', rfl⟩ := form q qs l' (hq q (by simp)) h'
      rw [linesFrom_block hn, linesFrom_block hn', List.cons.injEq] at e
      obtain ⟨e1, e2⟩ := e
      obtain rfl := (Prod.mk.inj e1).2
      obtain ⟨e2, e3⟩ := block_split (linesFrom_deep hn (d + 1)) (linesFrom_deep hn' (d + 1)) (back _ _ (fun x hx => hp x (by simp [hx])) hr) (back _ _ (fun x hx => hq x (by simp [hx])) hr') e2
      obtain ⟨ef, et, epart⟩ := title_shown h1 h1'
      have priv : ∀ (x : Pkt (SigAt n)) (t : Bytes), pktTitle x.fmt x.body.tag x.part = .ok t → ∀ k s, x.body = .priv k s → k < 4 := by
        intro x t hx k s hb
        rw [hb] at hx
        unfold pktTitle at hx
        split at hx
        · rename_i hl
          by_contra hk
          have : tagNames.lookup (60 + k) = none := by
            rw [List.lookup_eq_none_iff]
            intro y hy
            have : ∀ y ∈ tagNames, y.1 < 64 := by decide +kernel
            have := this y hy
            simp
            omega
          simp only [Body.tag] at hl
          rw [this] at hl
          cases hl
        · cases hx
      have eb := body_shown env ht n showC p.body q.body et (priv p _ h1) (priv q _ h1') (hp p (by simp)).1 (hq q (by simp)).1 a a' ha ha' (d + 1) e2
      have ep : p = q := by
        have s1 := (hp p (by simp)).2
        have s2 := (hq q (by simp)).2
        obtain ⟨f, pt, b⟩ := p
        obtain ⟨f', pt', b'⟩ := q
        simp only at ef eb epart s1 s2
        subst ef eb
        have : pt = pt' := by
          cases pt with
          | true => exact epart (s1 rfl)
          | false => cases pt' with
            | false => rfl
            | true => exact epart (s2 rfl)
        rw [this]
      rw [ep, ih qs r r' (fun x hx => hp x (by simp [hx])) (fun x hx => hq x (by simp [hx])) hr hr' e3]

/-! ## Text -/

/-- A line that is one line and does not begin with a space. -/
structure Plain (s : Bytes) : Prop where
  line : 10 ∉ s
  start : s.head? ≠ some 32

theorem spaces_inj {m n : Nat} {a b : Bytes} (ha : a.head? ≠ some 32) (hb : b.head? ≠ some 32) (h : List.replicate m (32 : UInt8) ++ a = List.replicate n 32 ++ b) : m = n ∧ a = b := by
  induction m generalizing n with
  | zero => cases n with
    | zero => exact ⟨rfl, by simpa using h⟩
    | succ n => simp [List.replicate_succ] at h; exact absurd (by simp [h]) ha
  | succ m ih => cases n with
    | zero => simp [List.replicate_succ] at h; exact absurd (by simp [← h]) hb
    | succ n =>
      simp only [List.replicate_succ, List.cons_append, List.cons.injEq, true_and] at h
      obtain ⟨h1, h2⟩ := ih h
      exact ⟨by rw [h1], h2⟩

theorem flatten_spaces (k size : Nat) : (List.replicate k (List.replicate size (32 : UInt8))).flatten = List.replicate (k * size) 32 := by
  induction k with
  | zero => simp
  | succ k ih => rw [List.replicate_succ, List.flatten_cons, ih, List.replicate_append_replicate]; congr 1; rw [Nat.add_mul]; omega

theorem layout_inj {h : Hr} {k size : Nat} (hp : h.prefix_ = List.replicate k 32) (hi : h.indent = List.replicate size 32) (hs : 0 < size) (ls : List (Nat × Bytes)) : ∀ (ls' : List (Nat × Bytes)),
    (∀ x ∈ ls, Plain x.2) → (∀ x ∈ ls', Plain x.2) → h.layout ls = h.layout ls' → ls = ls' := by
  have one : ∀ x : Nat × Bytes, h.prefix_ ++ (List.replicate (h.level + x.1) h.indent).flatten ++ x.2 ++ [10] = (List.replicate (k + (h.level + x.1) * size) 32 ++ x.2) ++ [10] := by
    intro x
    rw [hp, hi, flatten_spaces, List.replicate_append_replicate]
  induction ls with
  | nil =>
    intro ls' _ _ e
    cases ls' with
    | nil => rfl
    | cons x ls' => simp [Hr.layout] at e
  | cons x ls ih =>
    intro ls' hl hl' e
    cases ls' with
    | nil => simp [Hr.layout] at e
    | cons y ls' =>
      simp only [Hr.layout, List.flatMap_cons] at e
      rw [one, one] at e
      have e : (List.replicate (k + (h.level + x.1) * size) 32 ++ x.2) ++ 10 :: h.layout ls = (List.replicate (k + (h.level + y.1) * size) 32 ++ y.2) ++ 10 :: h.layout ls' := by
        simpa [Hr.layout] using e
      have hx := hl x (by simp)
      have hy := hl' y (by simp)
      have no : ∀ (m : Nat) (s : Bytes), 10 ∉ s → (10 : UInt8) ∉ List.replicate m 32 ++ s := by
        intro m s hs h
        rcases List.mem_append.mp h with h | h
        · exact absurd (List.eq_of_mem_replicate h) (by decide)
        · exact hs h
      obtain ⟨e1, e2⟩ := first_split (no _ _ hx.1) (no _ _ hy.1) e
      obtain ⟨e3, e4⟩ := spaces_inj hx.2 hy.2 e1
      have e5 : x.1 = y.1 := by
        have := Nat.eq_of_mul_eq_mul_right hs (show (h.level + x.1) * size = (h.level + y.1) * size by omega)
        omega
      rw [ih ls' (fun z hz => hl z (by simp [hz])) (fun z hz => hl' z (by simp [hz])) e2, Prod.ext e5 e4]


/-! ### Every line is plain -/

theorem mapped_line (names : List (Nat × String)) (h : ∀ x ∈ names, (10 : UInt8) ∉ ascii x.2) (k : Nat) : (10 : UInt8) ∉ mapped names k := by
  unfold mapped
  cases hl : names.lookup k with
  | none => decide +kernel
  | some s =>
    have : (k, s) ∈ names := by
      clear h
      induction names with
      | nil => cases hl
      | cons x names ih =>
        obtain ⟨a, b⟩ := x
        rw [List.lookup_cons] at hl
        by_cases hk : k = a
        · subst hk; simp at hl; simp [hl]
        · rw [beq_false_of_ne hk] at hl; exact List.mem_cons_of_mem _ (ih hl)
    exact h _ this

theorem no_append {x : UInt8} {a b : Bytes} (ha : x ∉ a) (hb : x ∉ b) : x ∉ a ++ b := fun h => (List.mem_append.mp h).elim ha hb
theorem no_ite {x : UInt8} {p : Prop} [Decidable p] {a b : Bytes} (ha : x ∉ a) (hb : x ∉ b) : x ∉ if p then a else b := by split <;> assumption

theorem makehex_not {v w : Nat} {c : UInt8} (h : c < 48) : c ∉ makehex v w false := fun hm => hex_not h (makehex_digit hm)

theorem pkaNames_line (k : Nat) : 10 ∉ mapped pkaNames k := mapped_line _ (by decide +kernel) k
theorem hashNames_line (k : Nat) : 10 ∉ mapped hashNames k := mapped_line _ (by decide +kernel) k
theorem symNames_line (k : Nat) : 10 ∉ mapped symNames k := mapped_line _ (by decide +kernel) k
theorem compNames_line (k : Nat) : 10 ∉ mapped compNames k := mapped_line _ (by decide +kernel) k
theorem sigNames_line (k : Nat) : 10 ∉ mapped sigNames k := mapped_line _ (by decide +kernel) k
theorem literalNames_line (k : Nat) : 10 ∉ mapped literalNames k := mapped_line _ (by decide +kernel) k
theorem notationNames_line (k : Nat) : 10 ∉ mapped notationNames k := mapped_line _ (by decide +kernel) k
theorem revokeNames_line (k : Nat) : 10 ∉ mapped revokeNames k := mapped_line _ (by decide +kernel) k

macro "nl" : tactic => `(tactic| repeat' first
  | with_reducible assumption
  | with_reducible apply no_append
  | with_reducible apply no_ite
  | with_reducible exact dec_not (by decide)
  | with_reducible exact hexlify_not (by decide)
  | with_reducible exact mpitohex_not (by decide)
  | with_reducible exact decChar_not (by decide)
  | with_reducible exact makehex_not (by decide)
  | with_reducible exact pkaNames_line _
  | with_reducible exact hashNames_line _
  | with_reducible exact symNames_line _
  | with_reducible exact compNames_line _
  | with_reducible exact sigNames_line _
  | with_reducible exact literalNames_line _
  | with_reducible exact notationNames_line _
  | with_reducible exact revokeNames_line _
  | with_reducible exact Times.line (by assumption) _
  | (decide +kernel))

theorem plain_label {l t : Bytes} (h1 : (l.head?.isSome && l.head? != some 32 && !l.contains 10) = true) (h2 : 10 ∉ t) : Plain (l ++ t) := by
  cases l with
  | nil => cases h1
  | cons a l =>
    simp at h1
    exact ⟨no_append (by simp; exact h1.2) h2, by simp; exact h1.1⟩

/-- Each line among the actions is plain. -/
def PlainActs (l : List Act) : Prop := ∀ s, Act.line s ∈ l → Plain s

theorem plain_nil : PlainActs [] := fun _ h => by cases h
theorem plain_line {s : Bytes} {l : List Act} : PlainActs (.line s :: l) ↔ Plain s ∧ PlainActs l := by simp [PlainActs]
theorem plain_down {l : List Act} : PlainActs (.down :: l) ↔ PlainActs l := by simp [PlainActs]
theorem plain_up {l : List Act} : PlainActs (.up :: l) ↔ PlainActs l := by simp [PlainActs]
theorem plain_append {a b : List Act} : PlainActs (a ++ b) ↔ PlainActs a ∧ PlainActs b := by
  simp only [PlainActs, List.mem_append]
  exact ⟨fun h => ⟨fun s hs => h s (.inl hs), fun s hs => h s (.inr hs)⟩, fun h s hs => hs.elim (h.1 s) (h.2 s)⟩
theorem plain_map {α : Type} (l : List α) (f : α → Bytes) (h : ∀ a, Plain (f a)) : PlainActs (l.map fun a => .line (f a)) := by
  intro s hs
  obtain ⟨a, -, ha⟩ := List.mem_map.mp hs
  cases ha
  exact h a
theorem plain_flat {α : Type} (l : List α) (f : α → List Act) (h : ∀ a, PlainActs (f a)) : PlainActs (l.flatMap f) := by
  intro s hs
  obtain ⟨a, -, ha⟩ := List.mem_flatMap.mp hs
  exact h a s ha

theorem plain_lines {l : List Act} (h : PlainActs l) (d : Nat) : ∀ x ∈ linesFrom d l, Plain x.2 := by
  induction l generalizing d with
  | nil => intro x hx; cases hx
  | cons a l ih =>
    have hl : PlainActs l := fun s hs => h s (List.mem_cons_of_mem _ hs)
    cases a with
    | line s =>
      intro x hx
      rcases List.mem_cons.mp hx with rfl | hx
      · exact h s (by simp)
      · exact ih hl d x hx
    | _ => exact ih hl _

macro "pl" : tactic => `(tactic| (
  simp only [mpiLine, pkaLine, hashLine, S2K.title, List.cons_append, List.nil_append, List.append_assoc, plain_line, plain_down, plain_up, plain_append]
  repeat' first
  | with_reducible exact plain_nil
  | with_reducible apply And.intro
  | (with_reducible refine plain_label (by decide +kernel) ?_; nl; done)
  | (constructor <;> decide +kernel)))

theorem s2k_plain (s : S2K) : PlainActs s.acts := by
  cases s <;> simp only [S2K.acts] <;> pl

theorem pkesk_plain (t : Tag1) (l : List Act) (h : t.acts = .ok l) : PlainActs l := by
  unfold Tag1.acts at h
  dsimp only at h
  split at h
  · obtain ⟨m, -, h⟩ := Out.bind_eq_ok.mp h
    obtain rfl := Out.ok.inj h
    pl
  · split at h
    · obtain ⟨m, -, h⟩ := Out.bind_eq_ok.mp h
      obtain ⟨m', -, h⟩ := Out.bind_eq_ok.mp h
      obtain rfl := Out.ok.inj h
      pl
    · obtain rfl := Out.ok.inj h
      pl

theorem skesk_plain (t : Tag3) : PlainActs t.acts := by
  unfold Tag3.acts
  rw [plain_append, plain_append]
  refine ⟨⟨by pl, ?_⟩, ?_⟩
  · cases t.s2k with
    | some s => exact s2k_plain s
    | none => exact plain_line.mpr ⟨by constructor <;> decide, plain_nil⟩
  · cases t.esk with
    | some e => dsimp only; pl
    | none => exact plain_nil

theorem onePass_plain (t : Tag4) : PlainActs t.acts := by
  unfold Tag4.acts
  pl

theorem key_plain {time : Nat → Bytes} (ht : Times time) {k : KeyPkt} (hv : k.version = 4) {l : List Act} (h : k.acts time = .ok l) : PlainActs l := by
  unfold KeyPkt.acts at h
  dsimp only at h
  rw [if_neg (by rw [hv]; decide), if_pos hv] at h
  split at h
  · obtain ⟨n, -, h⟩ := Out.bind_eq_ok.mp h
    obtain ⟨e, -, h⟩ := Out.bind_eq_ok.mp h
    obtain rfl := Out.ok.inj h
    pl
  · split at h
    · obtain ⟨n, -, h⟩ := Out.bind_eq_ok.mp h
      obtain ⟨e, -, h⟩ := Out.bind_eq_ok.mp h
      obtain ⟨e, -, h⟩ := Out.bind_eq_ok.mp h
      obtain rfl := Out.ok.inj h
      pl
    · split at h
      · obtain ⟨n, -, h⟩ := Out.bind_eq_ok.mp h
        obtain ⟨e, -, h⟩ := Out.bind_eq_ok.mp h
        obtain ⟨e, -, h⟩ := Out.bind_eq_ok.mp h
        obtain ⟨e, -, h⟩ := Out.bind_eq_ok.mp h
        obtain rfl := Out.ok.inj h
        pl
      · obtain rfl := Out.ok.inj h
        pl

theorem protected_plain {t : Tag5} (hw : WholeProtected t) {b : List Act} (hb : t.privateActs = .ok b) : PlainActs b := by
  have hc : t.s2kCon > 253 ∧ t.s2kCon ≠ 0 := by rcases hw.1 with h | h <;> rw [h] <;> decide
  have : ∃ s, t.s2k = some s := by rcases hw.2 with ⟨_, _, h⟩ | ⟨_, _, _, h⟩ <;> exact ⟨_, h⟩
  obtain ⟨s, hs⟩ := this
  unfold Tag5.privateActs at hb
  rw [if_pos hc.1, hs] at hb
  obtain ⟨x, hx, hb⟩ := Out.bind_eq_ok.mp hb
  rw [if_pos hc.2] at hb
  obtain rfl := Out.ok.inj hb
  obtain rfl := Out.ok.inj hx
  rw [plain_append, plain_append, plain_append]
  refine ⟨⟨⟨by pl, s2k_plain s⟩, ?_⟩, ?_⟩
  · cases s
    · exact plain_nil
    · dsimp only; pl
    · dsimp only; pl
  · rw [plain_line, plain_down, plain_line, plain_up]
    refine ⟨?_, ?_, plain_nil⟩
    · simp only [List.append_assoc]
      apply plain_label (by decide +kernel)
      nl
    · split
      · simp only [List.append_assoc]; apply plain_label (by decide +kernel); nl
      · split
        · simp only [List.append_assoc]; apply plain_label (by decide +kernel); nl
        · split <;> (simp only [List.append_assoc]; apply plain_label (by decide +kernel); nl)

theorem secret_plain {time : Nat → Bytes} (ht : Times time) {t : Tag5} (hv : t.key.version = 4) (hw : WholeSecret t) {l : List Act} (h : t.acts time = .ok l) : PlainActs l := by
  obtain ⟨a, ha, h⟩ := Out.bind_eq_ok.mp h
  obtain ⟨b, hb, h⟩ := Out.bind_eq_ok.mp h
  obtain rfl := Out.ok.inj h
  refine plain_append.mpr ⟨key_plain ht hv ha, ?_⟩
  rcases hw.2 with hw | hw
  · exact protected_plain hw hb
  · obtain ⟨ms, sum, -, ho⟩ := open_form t b hw hb
    rcases ho with ⟨-, d1, p1, q1, u1, -, rfl⟩ | ⟨-, x1, -, rfl⟩ | ⟨-, x1, -, rfl⟩
    all_goals
      simp only [secretLine]
      pl

theorem literal_plain {time : Nat → Bytes} (ht : Times time) {t : Tag11} (h1 : 10 ∉ t.filename) (h2 : 10 ∉ t.literal) : PlainActs (t.acts time) := by
  unfold Tag11.acts
  pl

theorem flags_plain (names : List (Nat × String)) (hn : ∀ x ∈ names, (10 : UInt8) ∉ ascii x.2) (num : Nat → Bytes) (h : ∀ k, 10 ∉ num k) (s : Bytes) : PlainActs (s.flatMap (flagActs names num)) := by
  refine plain_flat _ _ fun c => ?_
  unfold flagActs
  refine plain_map _ _ fun i => ?_
  simp only [List.append_assoc]
  apply plain_label (by decide +kernel)
  have := h (2 ^ i)
  have := mapped_line names hn (2 ^ i)
  nl

theorem subBody_plain (env : ShowEnv E) (ht : Times env.time) (showE : E → Out (List Act)) (lineE : E → Prop) (hE : ∀ e l, lineE e → showE e = .ok l → PlainActs l) (b : SubBody E) (hb : OneLineSub lineE b)
    (hk : ¬ ∃ dt, b = .keyExpire dt) (l : List Act) (h : b.acts env showE = .ok l) : PlainActs l := by
  cases b with
  | keyExpire dt => exact absurd ⟨dt, rfl⟩ hk
  | embedded e => cases e with
    | none => obtain rfl := Out.ok.inj h; exact plain_nil
    | some e => exact hE e l hb h
  | placeholder s => obtain rfl := Out.ok.inj h; exact plain_line.mpr ⟨⟨hb.1, hb.2⟩, plain_nil⟩
  | prefSym s => obtain rfl := Out.ok.inj h; refine plain_map _ _ fun c => ?_; simp only [List.append_assoc]; apply plain_label (by decide +kernel); nl
  | prefHash s => obtain rfl := Out.ok.inj h; refine plain_map _ _ fun c => ?_; simp only [List.append_assoc]; apply plain_label (by decide +kernel); nl
  | prefComp s => obtain rfl := Out.ok.inj h; refine plain_map _ _ fun c => ?_; simp only [List.append_assoc]; apply plain_label (by decide +kernel); nl
  | keyServerPrefs s => obtain rfl := Out.ok.inj h; exact flags_plain _ (by decide +kernel) _ (fun k => by nl) s
  | keyFlags s => obtain rfl := Out.ok.inj h; exact flags_plain _ (by decide +kernel) _ (fun k => by nl) s
  | features s => obtain rfl := Out.ok.inj h; exact flags_plain _ (by decide +kernel) _ (fun k => by nl) s
  | «notation» fl m n =>
    obtain rfl := Out.ok.inj h
    obtain ⟨h1, h2⟩ : 10 ∉ m ∧ 10 ∉ n := hb
    refine plain_append.mpr ⟨?_, by pl⟩
    refine plain_map _ _ fun c => ?_
    simp only [List.append_assoc]
    apply plain_label (by decide +kernel)
    nl
  | reason c w =>
    obtain rfl := Out.ok.inj h
    have hw : 10 ∉ w := hb
    rw [plain_line]
    refine ⟨by simp only [List.append_assoc]; apply plain_label (by decide +kernel); nl, ?_⟩
    split
    · pl
    · exact plain_nil
  | _ =>
    obtain rfl := Out.ok.inj h
    simp only [OneLineSub] at hb
    pl


theorem title_plain_sub {env : ShowEnv E} {s : Sub E} {t : Bytes} (h : s.title env = .ok t) : Plain t := by
  unfold Sub.title at h
  split at h
  · rename_i name hl
    obtain rfl := Out.ok.inj h
    have hm : ∀ x ∈ subNames, ((ascii x.2).head?.isSome && (ascii x.2).head? != some 32 && !(ascii x.2).contains 10) = true := by decide +kernel
    have hn : ((ascii name).head?.isSome && (ascii name).head? != some 32 && !(ascii name).contains 10) = true := by
      have : ∀ (l : List (Nat × String)), l.lookup s.body.type = some name → ∃ x ∈ l, x.2 = name := by
        intro l
        induction l with
        | nil => intro h; cases h
        | cons x l ih =>
          intro h
          obtain ⟨a, b⟩ := x
          rw [List.lookup_cons] at h
          split at h
          · exact ⟨(a, b), by simp, by simpa using h⟩
          · obtain ⟨y, hy, e⟩ := ih h
            exact ⟨y, by simp [hy], e⟩
      obtain ⟨x, hx, rfl⟩ := this _ hl
      exact hm x hx
    have hl : 10 ∉ ascii name := by
      simp only [Bool.and_eq_true, Bool.not_eq_true', List.contains_eq_mem, decide_eq_false_iff_not] at hn
      exact hn.2
    split
    · simp only [List.append_assoc]
      apply plain_label (by decide +kernel)
      nl
    · rw [List.nil_append]
      simp only [List.append_assoc]
      apply plain_label hn
      nl
  · cases h

theorem subs_plain (env : ShowEnv E) (ht : Times env.time) (showE : E → Out (List Act)) (lineE : E → Prop) (hE : ∀ e l, lineE e → showE e = .ok l → PlainActs l) (ss : List (Sub E)) :
    ∀ (c : Nat) (l : List Act), (∀ x ∈ ss, OneLineSub lineE x.body) → subsActs env showE c ss = .ok l → PlainActs l := by
  induction ss with
  | nil => intro c l _ h; obtain rfl := Out.ok.inj h; exact plain_nil
  | cons s ss ih =>
    intro c l ho h
    rw [subsActs] at h
    obtain ⟨⟨c', a⟩, ha, h⟩ := Out.bind_eq_ok.mp h
    obtain ⟨r, hr, h⟩ := Out.bind_eq_ok.mp h
    obtain rfl := Out.ok.inj h
    refine plain_append.mpr ⟨?_, ih c' r (fun x hx => ho x (by simp [hx])) hr⟩
    rw [sub_acts_eq] at ha
    obtain ⟨t, h1, ha⟩ := Out.bind_eq_ok.mp ha
    obtain ⟨b, h2, ha⟩ := Out.bind_eq_ok.mp ha
    obtain ⟨-, rfl⟩ := Prod.mk.inj (Out.ok.inj ha)
    simp only [List.cons_append, List.nil_append, plain_line, plain_down, plain_append, plain_up]
    refine ⟨title_plain_sub h1, ?_, plain_nil⟩
    by_cases hk : ∃ dt, s.body = .keyExpire dt
    · obtain ⟨dt, hk⟩ := hk
      rw [hk] at h2
      obtain rfl := Out.ok.inj h2
      pl
    · rw [contents_eq _ hk] at h2
      exact subBody_plain env ht showE lineE hE s.body (ho s (by simp)) hk b h2

theorem subList_plain (env : ShowEnv E) (ht : Times env.time) (showE : E → Out (List Act)) (lineE : E → Prop) (hE : ∀ e l, lineE e → showE e = .ok l → PlainActs l) (t : String)
    (hp : Plain (ascii t)) (ss : List (Sub E)) (l : List Act) (ho : ∀ x ∈ ss, OneLineSub lineE x.body) (h : subListActs env showE t ss = .ok l) : PlainActs l := by
  unfold subListActs at h
  split at h
  · obtain rfl := Out.ok.inj h; exact plain_nil
  · obtain ⟨a, ha, h⟩ := Out.bind_eq_ok.mp h
    obtain rfl := Out.ok.inj h
    simp only [List.cons_append, List.nil_append, plain_line, plain_down, plain_append, plain_up]
    exact ⟨hp, subs_plain env ht showE lineE hE _ _ a ho ha, plain_nil⟩

theorem sig_plain (env : ShowEnv E) (ht : Times env.time) (showE : E → Out (List Act)) (lineE : E → Prop) (hE : ∀ e l, lineE e → showE e = .ok l → PlainActs l) (s : Tag2 E)
    (ho : OneLineSig lineE s) (l : List Act) (h : s.acts env showE = .ok l) : PlainActs l := by
  unfold Tag2.acts at h
  obtain ⟨mid, hmid, h⟩ := Out.bind_eq_ok.mp h
  obtain ⟨m, hm, h⟩ := Out.bind_eq_ok.mp h
  obtain rfl := Out.ok.inj h
  rw [plain_append, plain_append, plain_append]
  refine ⟨⟨⟨by pl, ?_⟩, by pl⟩, ?_⟩
  · split at hmid
    · obtain rfl := Out.ok.inj hmid
      pl
    · split at hmid
      · obtain ⟨a, ha, hmid⟩ := Out.bind_eq_ok.mp hmid
        obtain ⟨u, hu, hmid⟩ := Out.bind_eq_ok.mp hmid
        obtain rfl := Out.ok.inj hmid
        rw [plain_append, plain_append]
        refine ⟨⟨by pl, ?_⟩, ?_⟩
        · exact subList_plain env ht showE lineE hE _ (by constructor <;> decide +kernel) _ a (fun x hx => ho x (by simp [hx])) ha
        · exact subList_plain env ht showE lineE hE _ (by constructor <;> decide +kernel) _ u (fun x hx => ho x (by simp [hx])) hu
      · obtain rfl := Out.ok.inj hmid; exact plain_nil
  · split at hm
    · obtain ⟨a, -, hm⟩ := Out.bind_eq_ok.mp hm
      obtain rfl := Out.ok.inj hm
      pl
    · split at hm
      · obtain ⟨a, -, hm⟩ := Out.bind_eq_ok.mp hm
        obtain ⟨b, -, hm⟩ := Out.bind_eq_ok.mp hm
        obtain rfl := Out.ok.inj hm
        pl
      · obtain rfl := Out.ok.inj hm; exact plain_nil

theorem embedded_plain (env : (n : Nat) → ShowEnv (SigAt n)) (ht : ∀ n, Times (env n).time) (n : Nat) : ∀ (s : SigAt n) (l : List Act), OneLineSigAt n s → showSig env n s = .ok l → PlainActs l := by
  induction n with
  | zero => intro s; exact s.elim
  | succ n ih =>
    intro s l ho h
    rw [showSig] at h
    obtain ⟨a, ha, h⟩ := Out.bind_eq_ok.mp h
    obtain rfl := Out.ok.inj h
    simp only [List.cons_append, List.nil_append, plain_line, plain_down, plain_append, plain_up]
    exact ⟨by constructor <;> decide +kernel, sig_plain (env n) (ht n) (showSig env n) (OneLineSigAt n) ih s ho a ha, plain_nil⟩

theorem body_plain (env : (n : Nat) → ShowEnv (SigAt n)) (ht : ∀ n, Times (env n).time) (n : Nat) (showC : UInt8 → Bytes → Out (List Act)) (b : Body (SigAt n))
    (hw : Whole (WholeSigAt n) b) (ho : OneLine (OneLineSigAt n) b) (l : List Act) (h : b.acts (env n) (showSig env n) showC = .ok l) : PlainActs l := by
  have t1 := ht n
  cases b with
  | pkesk t => exact pkesk_plain t l h
  | sig s => exact sig_plain (env n) (ht n) (showSig env n) (OneLineSigAt n) (embedded_plain env ht n) s ho l h
  | skesk t => obtain rfl := Out.ok.inj h; exact skesk_plain t
  | onePass t => obtain rfl := Out.ok.inj h; exact onePass_plain t
  | secretKey t => exact secret_plain (ht n) ho hw h
  | secretSubkey t => exact secret_plain (ht n) ho hw h
  | publicKey k => exact key_plain (ht n) ho h
  | publicSubkey k => exact key_plain (ht n) ho h
  | compressed c d => exact hw.elim
  | userAttr a => exact hw.elim
  | marker m => obtain rfl := Out.ok.inj h; exact plain_line.mpr ⟨⟨ho.1, ho.2⟩, plain_nil⟩
  | literal t => obtain rfl := Out.ok.inj h; exact literal_plain (ht n) ho.1 ho.2
  | priv k s =>
    obtain rfl := Out.ok.inj h
    refine plain_line.mpr ⟨⟨hexlify_not (by decide), ?_⟩, plain_nil⟩
    intro e
    have : (32 : UInt8) ∈ hexlify s := List.mem_of_mem_head? e
    exact hexlify_not (by decide) this
  | _ =>
    obtain rfl := Out.ok.inj h
    simp only [OneLine] at ho
    pl

theorem title_plain {f : Fmt} {t : Nat} {p : Bool} {x : Bytes} (h : pktTitle f t p = .ok x) : Plain x := by
  unfold pktTitle at h
  split at h
  · rename_i name hl
    obtain rfl := Out.ok.inj h
    have hn : 10 ∉ ascii name := by
      have := mapped_line tagNames (by decide +kernel) t
      unfold mapped at this
      rw [hl] at this
      exact this
    split
    all_goals
      simp only [List.append_assoc]
      apply plain_label (by decide +kernel)
      nl
  · cases h

theorem pkts_plain (env : (n : Nat) → ShowEnv (SigAt n)) (ht : ∀ n, Times (env n).time) (n : Nat) (showC : UInt8 → Bytes → Out (List Act)) (ps : List (Pkt (SigAt n))) :
    ∀ l, (∀ p ∈ ps, Whole (WholeSigAt n) p.body ∧ OneLine (OneLineSigAt n) p.body) → pktsActs (Pkt.acts (env n) (showSig env n) showC) ps = .ok l → PlainActs l ∧ Neat true l := by
  induction ps with
  | nil => intro l _ h; obtain rfl := Out.ok.inj h; exact ⟨plain_nil, neat_nil⟩
  | cons p ps ih =>
    intro l hp h
    obtain ⟨a, ha, h⟩ := Out.bind_eq_ok.mp h
    obtain ⟨r, hr, h⟩ := Out.bind_eq_ok.mp h
    obtain rfl := Out.ok.inj h
    obtain ⟨t, b, h1, h2, rfl⟩ := pkt_form ha
    obtain ⟨i1, i2⟩ := ih r (fun x hx => hp x (by simp [hx])) hr
    have hw := hp p (by simp)
    refine ⟨plain_append.mpr ⟨?_, i1⟩, neat_append (neat_wrap t ?_) i2⟩
    · simp only [List.cons_append, List.nil_append, plain_line, plain_down, plain_append, plain_up]
      exact ⟨title_plain h1, body_plain env ht n showC p.body hw.1 hw.2 b h2, plain_nil⟩
    · refine Body.neat (env n) (showSig env n) _ (showSig_neat env n) _ ?_ (Or.inl rfl) _ h2
      intro c x l hb
      have hw := hw.1
      rw [hb] at hw
      exact hw.elim

/-! ## The theorems -/

/-- **What is shown says what is there, on one line each.** Two lists of packets of which everything is shown and whose texts are on one line, shown with at least one space for
each level, look the same only if they are the same: nothing is left out, mixed up or moved. -/
theorem C66_text_partial (env : (n : Nat) → ShowEnv (SigAt n)) (ht : ∀ n, Times (env n).time) (n : Nat) (showC : UInt8 → Bytes → Out (List Act)) (ps qs : List (Pkt (SigAt n)))
    (hp : ∀ p ∈ ps, Shows n p ∧ OneLine (OneLineSigAt n) p.body) (hq : ∀ q ∈ qs, Shows n q ∧ OneLine (OneLineSigAt n) q.body) (indents size : Nat) (hs : 1 ≤ size)
    (text : Bytes) (files files' : List (Bytes × Bytes)) (h : showText (Pkt.acts (env n) (showSig env n) showC) ps indents size = .ok (text, files))
    (h' : showText (Pkt.acts (env n) (showSig env n) showC) qs indents size = .ok (text, files')) : ps = qs := by
  obtain ⟨l, hl, h⟩ := Out.bind_eq_ok.mp h
  obtain ⟨l', hl', h'⟩ := Out.bind_eq_ok.mp h'
  have h := (Prod.mk.inj (Out.ok.inj h)).1
  have h' := (Prod.mk.inj (Out.ok.inj h')).1
  obtain ⟨p1, p2⟩ := pkts_plain env ht n showC ps l (fun p hpp => ⟨(hp p hpp).1.1, (hp p hpp).2⟩) hl
  obtain ⟨q1, q2⟩ := pkts_plain env ht n showC qs l' (fun p hpp => ⟨(hq p hpp).1.1, (hq p hpp).2⟩) hl'
  obtain ⟨-, -, -, r1⟩ := run_layout l (Hr.fresh size indents) 0 0 0 rfl (p2 0)
  obtain ⟨-, -, -, r2⟩ := run_layout l' (Hr.fresh size indents) 0 0 0 rfl (q2 0)
  rw [r1] at h
  rw [r2, ← h] at h'
  have e := List.append_cancel_left h'
  have e := layout_inj (h := { Hr.fresh size indents with level := 0 }) (k := indents * size) (size := size) (flatten_spaces indents size) rfl hs _ _ (plain_lines q1 0) (plain_lines p1 0) e
  exact (pkts_shown env ht n showC 0 ps qs l l' (fun p hpp => (hp p hpp).1) (fun q hqq => (hq q hqq).1) hl hl' e.symm)


/-- The same of the lines and their levels, whatever the texts are. -/
theorem C66_lines_partial (env : (n : Nat) → ShowEnv (SigAt n)) (ht : ∀ n, Times (env n).time) (n : Nat) (showC : UInt8 → Bytes → Out (List Act)) (ps qs : List (Pkt (SigAt n)))
    (hp : ∀ p ∈ ps, Shows n p) (hq : ∀ q ∈ qs, Shows n q) (l l' : List Act) (h : pktsActs (Pkt.acts (env n) (showSig env n) showC) ps = .ok l)
    (h' : pktsActs (Pkt.acts (env n) (showSig env n) showC) qs = .ok l') (e : linesFrom 0 l = linesFrom 0 l') : ps = qs :=
  pkts_shown env ht n showC 0 ps qs l l' hp hq h h' e

/-! ## What is not shown -/

/-- **Failure: why a key was revoked.** With the number 0 the text behind it is not shown. -/
theorem C66_reason_fails (env : ShowEnv E) (showE : E → Out (List Act)) (c : Nat) (crit : Bool) (w w' : Bytes) (hs : env.subSize ⟨crit, .reason 0 w⟩ = env.subSize ⟨crit, .reason 0 w'⟩) :
    Sub.acts env showE c ⟨crit, .reason 0 w⟩ = Sub.acts env showE c ⟨crit, .reason 0 w'⟩ := by
  unfold Sub.acts Sub.title
  rw [hs]
  rfl

/-- **Failure: in which octet a flag stands.** The flags of several octets are shown in one list, so different octets look the same. -/
theorem C66_flags_fails (env : ShowEnv E) (showE : E → Out (List Act)) (c : Nat) (crit : Bool)
    (hs : env.subSize ⟨crit, .keyFlags [3, 0]⟩ = env.subSize ⟨crit, .keyFlags [1, 2]⟩) :
    Sub.acts env showE c ⟨crit, .keyFlags [3, 0]⟩ = Sub.acts env showE c ⟨crit, .keyFlags [1, 2]⟩ := by
  unfold Sub.acts Sub.title
  rw [hs]
  rfl

/-- **Failure: the format of a literal packet.** Formats without a name all look the same; no number is shown. -/
theorem C66_format_fails (time : Nat → Bytes) (t : Tag11) (f : UInt8) (h : t.format ∉ [0x62, 0x74, 0x75]) (hf : f ∉ [0x62, 0x74, 0x75]) : Tag11.acts time { t with format := f } = t.acts time := by
  have key : ∀ f : UInt8, f ∉ [0x62, 0x74, 0x75] → mapped literalNames f.toNat = ascii "Unknown" := by
    intro f hf
    unfold mapped
    have : literalNames.lookup f.toNat = none := by
      rw [List.lookup_eq_none_iff]
      intro x hx
      simp only [literalNames, List.mem_cons, List.not_mem_nil, or_false] at hx
      simp only [List.mem_cons, List.not_mem_nil, or_false, not_or] at hf
      rcases hx with rfl | rfl | rfl <;> refine bne_iff_ne.mpr ?_
      · exact fun h => hf.1 (UInt8.toNat_inj.mp h)
      · exact fun h => hf.2.1 (UInt8.toNat_inj.mp h)
      · exact fun h => hf.2.2 (UInt8.toNat_inj.mp h)
    rw [this]
    rfl
  unfold Tag11.acts
  rw [key _ h, key _ hf]

/-- **Failure: the IV of a secret key.** With a simple specifier it is not shown. -/
theorem C66_iv_fails (time : Nat → Bytes) (t : Tag5) (h : UInt8) (hs : t.s2k = some (.simple h)) (iv : Bytes) : Tag5.acts time { t with iv := iv } = t.acts time := by
  unfold Tag5.acts Tag5.privateActs
  rw [hs]

/-- **Failure: the numbers of a key of another algorithm** are not shown. -/
theorem C66_key_fails (time : Nat → Bytes) (k : KeyPkt) (hv : k.version = 4) (hp : k.pka ∉ [1, 2, 3, 16, 17]) (ms : List Nat) : KeyPkt.acts time { k with mpi := ms } = k.acts time := by
  simp only [List.mem_cons, List.not_mem_nil, or_false, not_or] at hp
  have hr : isRSA k.pka = false := by simp [isRSA, hp.1, hp.2.1, hp.2.2.1]
  unfold KeyPkt.acts
  simp only [hr, hp.2.2.2.1, hp.2.2.2.2, hv, if_false, Bool.false_eq_true]
  rfl

/-- **Failure: of a key of a later version** only the version and the time are shown. -/
theorem C66_key_version_fails (time : Nat → Bytes) (k : KeyPkt) (hv : 4 < k.version) (pka : UInt8) (ms : List Nat) : KeyPkt.acts time { k with pka := pka, mpi := ms } = k.acts time := by
  have h1 : ¬ k.version < 4 := by simp only [UInt8.lt_iff_toNat_lt] at *; omega
  have h2 : k.version ≠ 4 := by rintro h; rw [h] at hv; exact absurd hv (by decide)
  unfold KeyPkt.acts
  simp only [h1, h2, if_false]

/-- **Failure: of a signature of a later version** the kind, the algorithms and the subpackets are not shown. -/
theorem C66_sig_version_fails (env : ShowEnv E) (showE : E → Out (List Act)) (s : Tag2 E) (hv : 4 < s.version) (type hash : UInt8) (hashed unhashed : List (Sub E)) :
    Tag2.acts env showE { s with type := type, hash := hash, hashed := hashed, unhashed := unhashed } = s.acts env showE := by
  have h1 : ¬ s.version < 4 := by simp only [UInt8.lt_iff_toNat_lt] at *; omega
  have h2 : s.version ≠ 4 := by rintro h; rw [h] at hv; exact absurd hv (by decide)
  unfold Tag2.acts
  simp only [h1, h2, if_false]

/-! ## Names -/

/-- The names of hash functions and ciphers that are shown are those the commands take, for the same numbers. -/
theorem C66_names (k : UInt8) : (∀ name, (name, k) ∈ Cli.hashNumbers → mapped hashNames k.toNat = name) ∧ (∀ name, (name, k) ∈ Cli.symNumbers → mapped symNames k.toNat = name) := by
  have h1 : ∀ x ∈ Cli.hashNumbers, mapped hashNames x.2.toNat = x.1 := by decide +kernel
  have h2 : ∀ x ∈ Cli.symNumbers, mapped symNames x.2.toNat = x.1 := by decide +kernel
  exact ⟨fun n h => h1 (n, k) h, fun n h => h2 (n, k) h⟩

/-! ## Values under their names -/

/-- A value under its name, with the number of its bits and in hexadecimal digits. -/
def shownAs (name : String) (m : Nat) : Bytes := ascii name ++ ascii " (" ++ dec (bitsize m) ++ ascii " bits): " ++ mpitohex m

/-- The names of the values of a public key, in the order in which they are written (RFC 4880, 5.5.2). -/
def keyValueNames (pka : UInt8) : List String := if pka = 16 then ["ELGAMAL p", "ELGAMAL g", "ELGAMAL y"] else if pka = 17 then ["DSA p", "DSA q", "DSA g", "DSA y"] else ["RSA n", "RSA e"]

/-- **The values of a key are shown under their names.** -/
theorem C66_key_values (time : Nat → Bytes) (k : KeyPkt) (hw : WholeKey k) (hv : k.version = 4) (l : List Act) (h : k.acts time = .ok l) :
    linesFrom 0 l = [ascii "Version: 4 - New", ascii "Creation Time: " ++ time k.time, pkaLine k.pka].map (fun s => (0, s)) ++
      (List.zipWith shownAs (keyValueNames k.pka) k.mpi).map (fun s => (0, s)) ∧ (keyValueNames k.pka).length = k.mpi.length := by
  obtain ⟨v, t, p, m, x⟩ := k
  simp only at hv
  subst hv
  have e4 : ascii "Version: " ++ (dec 4 ++ (ascii " - " ++ ascii "New")) = ascii "Version: 4 - New" := by decide +kernel
  rw [KeyPkt.acts] at h
  simp only [if_neg (show ¬ (4 : UInt8) < 4 by decide), if_true] at h
  rcases hw.2 with ⟨hv, -⟩ | ⟨-, -, hw⟩
  · exact absurd (show (4 : UInt8) < 4 from hv) (by decide)
  · simp only at hw ⊢
    rcases hw with ⟨hp, hm⟩ | ⟨rfl, hm⟩ | ⟨rfl, hm⟩
    · obtain ⟨n, e, rfl⟩ := list_two hm
      have hr : isRSA p = true := by clear h hw; revert p; decide
      simp only [if_pos hr] at h
      obtain rfl := Out.ok.inj h
      have h1 : p ≠ 16 := by rintro rfl; revert hp; decide
      have h2 : p ≠ 17 := by rintro rfl; revert hp; decide
      simp [keyValueNames, h1, h2, linesFrom, mpiLine, shownAs, e4]
    · obtain ⟨a, b, c, rfl⟩ := list_three hm
      obtain rfl := Out.ok.inj h
      simp [keyValueNames, linesFrom, mpiLine, shownAs, e4]
    · obtain ⟨a, b, c, f, rfl⟩ := list_four hm
      obtain rfl := Out.ok.inj h
      simp [keyValueNames, linesFrom, mpiLine, shownAs, e4]

/-- The same for the values of a signature, of which they are the last lines. -/
theorem C66_signature_values (env : ShowEnv E) (showE : E → Out (List Act)) (s : Tag2 E) (hp : s.pka ∈ [1, 2, 3] ∧ s.mpi.length = 1 ∨ s.pka = 17 ∧ s.mpi.length = 2) (l : List Act)
    (h : s.acts env showE = .ok l) : ∃ pre, l = pre ++ .line (ascii "Hash Left 16 Bits: " ++ hexlify s.left16) ::
      (List.zipWith shownAs (if s.pka = 17 then ["DSA r", "DSA s"] else ["RSA m**d mod n"]) s.mpi).map .line := by
  unfold Tag2.acts at h
  obtain ⟨mid, -, h⟩ := Out.bind_eq_ok.mp h
  obtain ⟨m, hm, h⟩ := Out.bind_eq_ok.mp h
  obtain rfl := Out.ok.inj h
  refine ⟨[.line (ascii "Version: " ++ dec s.version.toNat)] ++ mid, ?_⟩
  rw [List.append_assoc]
  congr 1
  rw [List.cons_append, List.nil_append]
  congr 1
  rcases hp with ⟨hp, h1⟩ | ⟨hp, h2⟩
  · obtain ⟨a, ha⟩ := list_one h1
    have hr : isRSA s.pka = true := by generalize s.pka = p at hp; revert p; decide
    have h17 : s.pka ≠ 17 := by intro e; rw [e] at hp; revert hp; decide
    rw [if_pos hr, ha] at hm
    obtain rfl := Out.ok.inj hm
    rw [if_neg h17, ha]
    rfl
  · obtain ⟨a, b, ha⟩ := list_two h2
    rw [hp, if_neg (show ¬ isRSA 17 = true by decide), if_pos rfl, ha] at hm
    obtain rfl := Out.ok.inj hm
    rw [if_pos hp, ha]
    rfl

/-- The same for an encrypted session key. -/
theorem C66_session_values (t : Tag1) (hp : t.pka ∈ [1, 2, 3] ∧ t.mpi.length = 1 ∨ t.pka = 16 ∧ t.mpi.length = 2) (l : List Act) (h : t.acts = .ok l) :
    l = [ascii "Version: " ++ dec t.version.toNat, ascii "KeyID: " ++ hexlify t.keyid, pkaLine t.pka].map .line ++
      (List.zipWith shownAs (if t.pka = 16 then ["ELGAMAL g**k mod p", "ELGAMAL m * y**k mod p"] else ["RSA m**e mod n"]) t.mpi).map .line := by
  unfold Tag1.acts at h
  rcases hp with ⟨hp, h1⟩ | ⟨hp, h2⟩
  · obtain ⟨a, ha⟩ := list_one h1
    have h3 : t.pka ≤ 3 := by generalize t.pka = p at hp; revert p; decide
    have h16 : t.pka ≠ 16 := by intro e; rw [e] at hp; revert hp; decide
    simp only [if_pos h3, ha] at h
    obtain rfl := Out.ok.inj h
    rw [if_neg h16, ha]
    rfl
  · obtain ⟨a, b, ha⟩ := list_two h2
    rw [hp, if_neg (show ¬ (16 : UInt8) ≤ 3 by decide), if_pos rfl, ha] at h
    obtain rfl := Out.ok.inj h
    rw [if_pos hp, ha, hp]
    rfl

/-! ## Examples -/

/-- Times are shown with `show_time`. -/
def c66Env : (n : Nat) → ShowEnv (SigAt n) := fun _ => ⟨showTime, fun _ => 5, fun _ => 0, fun i => i, fun _ => false⟩

private def c66Sig : Tag2 (SigAt 1) :=
  ⟨4, 0x13, 1, 2, [5], [1, 2], 0, [], [⟨false, .sigTime 1234567890⟩, ⟨false, .keyExpire 86400⟩, ⟨true, .keyFlags [3]⟩], [⟨false, .issuer [1, 2, 3, 4, 5, 6, 7, 8]⟩]⟩

private def c66Pkts : List (Pkt (SigAt 1)) :=
  [⟨.old, false, .publicKey ⟨4, 1234567890, 1, [35, 5], 0⟩⟩, ⟨.new, false, .userId (ascii "Alice")⟩, ⟨.new, false, .sig c66Sig⟩]

/-- A key with a user ID and a certification: all of it is shown, on one line each. -/
example : (∀ n, Times (c66Env n).time) ∧ ∀ p ∈ c66Pkts, Shows 1 p ∧ OneLine (OneLineSigAt 1) p.body := by
  refine ⟨fun _ => showTime_times, ?_⟩
  simp only [c66Pkts, List.mem_cons, List.not_mem_nil, or_false]
  rintro p (rfl | rfl | rfl)
  · exact ⟨⟨⟨by decide, Or.inr ⟨rfl, rfl, Or.inl ⟨by decide, rfl⟩⟩⟩, by intro h; cases h⟩, rfl⟩
  · exact ⟨⟨trivial, by intro h; cases h⟩, show 10 ∉ ascii "Alice" by decide +kernel⟩
  · refine ⟨⟨⟨Or.inl ⟨rfl, rfl, rfl⟩, Or.inl ⟨by decide, rfl⟩, ?_⟩, by intro h; cases h⟩, ?_⟩
    · simp only [c66Sig, List.cons_append, List.nil_append, List.mem_cons, List.not_mem_nil, or_false]
      rintro x (rfl | rfl | rfl | rfl)
      · exact (show 1234567890 < 2 ^ 32 by decide)
      · exact (show 86400 < 2 ^ 32 by decide)
      · exact (show [(3 : UInt8)].length = 1 by decide)
      · trivial
    · intro x hx
      simp only [c66Sig, List.cons_append, List.nil_append, List.mem_cons, List.not_mem_nil, or_false] at hx
      rcases hx with rfl | rfl | rfl | rfl <;> trivial

example : showText (Pkt.acts (c66Env 1) (showSig c66Env 1) fun _ _ => .throw) (c66Pkts.take 2) 0 2 = .ok (ascii
"Old: Public-Key (Tag 6)
  Version: 4 - New
  Creation Time: Fri Feb 13 23:31:30 UTC 2009
  Public Key Algorithm: RSA (Encrypt or Sign) (pka 1)
  RSA n (6 bits): 23
  RSA e (3 bits): 05
New: User ID (Tag 13)
  User ID: Alice
", []) := by decide +kernel

/-- A secret key without protection. -/
example : WholeSecret ⟨⟨4, 0, 17, [23, 11, 2, 8], 0⟩, 0, 0, none, [], [0, 2, 3, 0, 5]⟩ :=
  ⟨⟨by decide, Or.inr ⟨rfl, rfl, Or.inr (Or.inr ⟨rfl, rfl⟩)⟩⟩, Or.inr ⟨rfl, rfl, rfl, rfl, [3], [0, 5], by decide +kernel, rfl, by decide +kernel, Or.inr ⟨Or.inr rfl, rfl⟩⟩⟩

end OpenPGP
