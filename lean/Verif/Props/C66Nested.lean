import Verif.Spec.ShownPacked
import Verif.Props.C66Packed

/-!
# C66: compressed packets among others

The theorems of C66 for lists in which compressed packets stand between others, to any depth.
-/
namespace OpenPGP
open Shown
variable {E : Type}

/-- The first line of a packet is its title, which is not a line about compression. -/
theorem title_first {f : Fmt} {t : Nat} {p : Bool} {x : Bytes} (h : pktTitle f t p = .ok x) (y : Bytes) : x ≠ ascii "Compression Algorithm: " ++ y := by
  unfold pktTitle at h
  split at h
  · obtain rfl := Out.ok.inj h
    have h1 : (ascii "Compression Algorithm: ").head? = some 67 := by decide +kernel
    have hN : (ascii "New").head? = some 78 := by decide +kernel
    have hO : (ascii "Old").head? = some 79 := by decide +kernel
    intro e
    have e := congrArg List.head? e
    cases f <;> simp [List.head?_append, h1, hN, hO] at e
  · cases h

/-- Lists of packets with an arbitrary relation for those that are shown the same. -/
theorem pkts_related (f : Pkt E → Out (List Act)) (g : Pkt E → Out (List Act)) (good : Pkt E → Prop) (R : Pkt E → Pkt E → Prop)
    (hf : ∀ p l, f p = .ok l → ∃ t a, pktTitle p.fmt p.body.tag p.part = .ok t ∧ g p = .ok a ∧ l = [.line t, .down] ++ a ++ [.up])
    (neat : ∀ p a, good p → g p = .ok a → Neat true a) (d : Nat)
    (rel : ∀ p q t a a', good p → good q → pktTitle p.fmt p.body.tag p.part = .ok t → pktTitle q.fmt q.body.tag q.part = .ok t → g p = .ok a → g q = .ok a' →
      linesFrom (d + 1) a = linesFrom (d + 1) a' → R p q) (ps : List (Pkt E)) :
    ∀ (qs : List (Pkt E)) (l l' : List Act), (∀ p ∈ ps, good p) → (∀ q ∈ qs, good q) → pktsActs f ps = .ok l → pktsActs f qs = .ok l' →
      linesFrom d l = linesFrom d l' → List.Forall₂ R ps qs := by
  have form : ∀ (p : Pkt E) (ps : List (Pkt E)) (l : List Act), good p → pktsActs f (p :: ps) = .ok l →
      ∃ t a r, pktTitle p.fmt p.body.tag p.part = .ok t ∧ g p = .ok a ∧ Neat true a ∧ pktsActs f ps = .ok r ∧ l = [.line t, .down] ++ a ++ [.up] ++ r := by
    intro p ps l hp h
    obtain ⟨x, hx, h⟩ := Out.bind_eq_ok.mp h
    obtain ⟨r, hr, h⟩ := Out.bind_eq_ok.mp h
    obtain rfl := Out.ok.inj h
    obtain ⟨t, a, ht, ha, rfl⟩ := hf p x hx
    exact ⟨t, a, r, ht, ha, neat p a hp ha, hr, rfl⟩
  have back : ∀ (ps : List (Pkt E)) (l : List Act), (∀ p ∈ ps, good p) → pktsActs f ps = .ok l → Back d (linesFrom d l) := by
    intro ps l hw h
    cases ps with
    | nil => obtain rfl := Out.ok.inj h; intro x hx; cases hx
    | cons p ps =>
      obtain ⟨t, a, r, -, -, -, -, rfl⟩ := form p ps l (hw p (by simp)) h
      intro x hx
      simp only [List.cons_append, List.nil_append, linesFrom, List.head?_cons, Option.some.injEq] at hx
      subst hx
      exact le_refl d
  induction ps with
  | nil =>
    intro qs l l' _ hq h h' e
    cases qs with
    | nil => exact .nil
    | cons q qs =>
      obtain ⟨t, a, r, -, -, -, -, rfl⟩ := form q qs l' (hq q (by simp)) h'
      obtain rfl := Out.ok.inj h
      simp [linesFrom] at e
  | cons p ps ih =>
    intro qs l l' hp hq h h' e
    cases qs with
    | nil =>
      obtain ⟨t, a, r, -, -, -, -, rfl⟩ := form p ps l (hp p (by simp)) h
      obtain rfl := Out.ok.inj h'
      simp [linesFrom] at e
    | cons q qs =>
      obtain ⟨t, a, r, h1, ha, hn, hr, rfl⟩ := form p ps l (hp p (by simp)) h
      obtain ⟨t', a', r', h1', ha', hn', hr', rfl⟩ := form q qs l' (hq q (by simp)) h'
      rw [linesFrom_block hn, linesFrom_block hn', List.cons.injEq] at e
      obtain ⟨e1, e2⟩ := e
      obtain rfl := (Prod.mk.inj e1).2
      obtain ⟨e2, e3⟩ := block_split (linesFrom_deep hn (d + 1)) (linesFrom_deep hn' (d + 1)) (back _ _ (fun x hx => hp x (by simp [hx])) hr) (back _ _ (fun x hx => hq x (by simp [hx])) hr') e2
      exact .cons (rel p q _ a a' (hp p (by simp)) (hq q (by simp)) h1 h1' ha ha' e2) (ih qs r r' (fun x hx => hp x (by simp [hx])) (fun x hx => hq x (by simp [hx])) hr hr' e3)

theorem priv_small {f : Fmt} {b : Body E} {part : Bool} {t : Bytes} (hx : pktTitle f b.tag part = .ok t) : ∀ k s, b = .priv k s → k < 4 := by
  intro k s hb
  rw [hb] at hx
  unfold pktTitle at hx
  split at hx
  · rename_i hl
    by_contra hk
    have : tagNames.lookup (60 + k) = none := by
      rw [List.lookup_eq_none_iff]
      intro y hy
      have : ∀ y ∈ tagNames, y.1 < 64 := by decide +kernel
      have := this y hy
      simp
      omega
    simp only [Body.tag] at hl
    rw [this] at hl
    cases hl
  · cases hx

/-- Two packets of which everything is shown. -/
theorem pkt_shown (env : (n : Nat) → ShowEnv (SigAt n)) (ht : ∀ n, Times (env n).time) (n : Nat) (showC : UInt8 → Bytes → Out (List Act)) (d : Nat) (p q : Pkt (SigAt n)) (t : Bytes) (a a' : List Act)
    (hp : Shows n p) (hq : Shows n q) (h1 : pktTitle p.fmt p.body.tag p.part = .ok t) (h1' : pktTitle q.fmt q.body.tag q.part = .ok t)
    (ha : p.body.acts (env n) (showSig env n) showC = .ok a) (ha' : q.body.acts (env n) (showSig env n) showC = .ok a') (e : linesFrom d a = linesFrom d a') : p = q := by
  obtain ⟨ef, et, epart⟩ := title_shown h1 h1'
  have eb := body_shown env ht n showC p.body q.body et (priv_small h1) (priv_small h1') hp.1 hq.1 a a' ha ha' d e
  have s1 := hp.2
  have s2 := hq.2
  obtain ⟨f, pt, b⟩ := p
  obtain ⟨f', pt', b'⟩ := q
  simp only at ef eb epart s1 s2
  subst ef eb
  have : pt = pt' := by
    cases pt with
    | true => exact epart (s1 rfl)
    | false => cases pt' with
      | false => rfl
      | true => exact epart (s2 rfl)
  rw [this]

theorem shows_not_compressed {n : Nat} {p : Pkt (SigAt n)} (h : Shows n p) : p.body.tag ≠ 8 := by
  obtain ⟨f, pt, b⟩ := p
  cases b <;> simp [Body.tag]
  · exact h.1.elim
  · omega

/-- The packets of two messages in compressed packets. -/
theorem msg_related (env : ShowEnv E) (showE : E → Out (List Act)) (hE : ∀ e l, showE e = .ok l → Neat true l) (z : Zip) (readE : Bytes → Out E) (depth : Nat) (d : Nat) (good : Pkt E → Prop)
    (R : Pkt E → Pkt E → Prop)
    (lists : ∀ d ps qs l l', (∀ p ∈ ps, good p) → (∀ q ∈ qs, good q) → pktsActs (Pkt.acts env showE (showCompressed env showE z readE depth)) ps = .ok l →
      pktsActs (Pkt.acts env showE (showCompressed env showE z readE depth)) qs = .ok l' → linesFrom d l = linesFrom d l' → List.Forall₂ R ps qs)
    (data : ∀ p, good p → p.body.tag = 8 → ∃ c x, p.body = .compressed c x ∧ x ≠ [])
    (m m' : Msg E) (hp : ∀ p ∈ m.packets, good p) (hq : ∀ q ∈ m'.packets, good q) (l l' : List Act)
    (h : m.acts (Pkt.acts env showE (showCompressed env showE z readE depth)) = .ok l) (h' : m'.acts (Pkt.acts env showE (showCompressed env showE z readE depth)) = .ok l')
    (e : linesFrom d l = linesFrom d l') :
    m.comp.map (fun k => (k.1, k.2.1)) = m'.comp.map (fun k => (k.1, k.2.1)) ∧ List.Forall₂ R m.packets m'.packets := by
  have neat : ∀ ps l, pktsActs (Pkt.acts env showE (showCompressed env showE z readE depth)) ps = .ok l → Neat true l := by
    intro ps
    induction ps with
    | nil => intro l h; obtain rfl := Out.ok.inj h; exact neat_nil
    | cons p ps ih =>
      intro l h
      obtain ⟨a, ha, h⟩ := Out.bind_eq_ok.mp h
      obtain ⟨r, hr, h⟩ := Out.bind_eq_ok.mp h
      obtain rfl := Out.ok.inj h
      obtain ⟨t, b, h1, h2, rfl⟩ := pkt_form ha
      exact neat_append (neat_wrap t (Body.neat env showE _ hE _ (fun c d l _ => showCompressed_neat _ _ hE z readE depth c d l) (Or.inl rfl) _ h2)) (ih r hr)
  -- a message that is packed once more is not shown like one that is not
  have mixed : ∀ (ps : List (Pkt E)) (i i' : List Act) (f : Fmt) (part : Bool) (t : Bytes) (qs : List (Pkt E)), (∀ p ∈ ps, good p) →
      pktsActs (Pkt.acts env showE (showCompressed env showE z readE depth)) ps = .ok i → pktTitle f 8 part = .ok t →
      pktsActs (Pkt.acts env showE (showCompressed env showE z readE depth)) qs = .ok i' → linesFrom d i = linesFrom d ([.line t, .down] ++ i' ++ [.up]) → False := by
    intro ps i i' f part t qs hps hi ht hi' e
    have hr := linesFrom_block (neat qs i' hi') t [] d
    rw [List.append_nil] at hr
    rw [hr] at e
    cases ps with
    | nil => obtain rfl := Out.ok.inj hi; cases e
    | cons p ps =>
      obtain ⟨x, hx, hi⟩ := Out.bind_eq_ok.mp hi
      obtain ⟨r, hr, hi⟩ := Out.bind_eq_ok.mp hi
      obtain rfl := Out.ok.inj hi
      obtain ⟨t', b, h1, h2, rfl⟩ := pkt_form hx
      have hn : Neat true b := Body.neat env showE _ hE _ (fun c d l _ => showCompressed_neat _ _ hE z readE depth c d l) (Or.inl rfl) _ h2
      rw [linesFrom_block hn, List.cons.injEq] at e
      obtain ⟨e1, e2⟩ := e
      obtain rfl := (Prod.mk.inj e1).2
      obtain ⟨-, h8, -⟩ := title_shown h1 ht
      obtain ⟨c, y, hb, hy⟩ := data p (hps p (by simp)) h8
      rw [hb] at h2
      cases depth with
      | zero => cases h2
      | succ k =>
        obtain ⟨_, _, inner, -, -, -, h4⟩ := compressed_form env showE z readE k c y hy b h2
        rw [h4] at e2
        cases qs with
        | nil =>
          obtain rfl := Out.ok.inj hi'
          cases e2
        | cons q qs =>
          obtain ⟨x', hx', hi'⟩ := Out.bind_eq_ok.mp hi'
          obtain ⟨r', hr', hi'⟩ := Out.bind_eq_ok.mp hi'
          obtain rfl := Out.ok.inj hi'
          obtain ⟨t'', b', h1', h2', rfl⟩ := pkt_form hx'
          simp only [List.cons_append, List.nil_append, linesFrom, List.append_assoc, List.cons.injEq, Prod.mk.injEq, true_and] at e2
          exact title_first h1' _ e2.1.symm
  obtain ⟨mc, mp⟩ := m
  obtain ⟨mc', mp'⟩ := m'
  obtain ⟨i, hi, h⟩ := Out.bind_eq_ok.mp h
  obtain ⟨i', hi', h'⟩ := Out.bind_eq_ok.mp h'
  cases mc with
  | none =>
    obtain rfl := Out.ok.inj h
    cases mc' with
    | none =>
      obtain rfl := Out.ok.inj h'
      exact ⟨rfl, lists d mp mp' _ _ hp hq hi hi' e⟩
    | some k =>
      obtain ⟨f, part, c⟩ := k
      obtain ⟨t, ht, h'⟩ := Out.bind_eq_ok.mp h'
      obtain rfl := Out.ok.inj h'
      exact (mixed mp _ i' f part t mp' hp hi ht hi' e).elim
  | some k =>
    obtain ⟨f, part, c⟩ := k
    obtain ⟨t, ht, h⟩ := Out.bind_eq_ok.mp h
    obtain rfl := Out.ok.inj h
    cases mc' with
    | none =>
      obtain rfl := Out.ok.inj h'
      exact (mixed mp' _ i f part t mp hq hi' ht hi e.symm).elim
    | some k' =>
      obtain ⟨f', part', c'⟩ := k'
      obtain ⟨t', ht', h'⟩ := Out.bind_eq_ok.mp h'
      obtain rfl := Out.ok.inj h'
      have w := linesFrom_block (neat mp i hi) t [] d
      have w' := linesFrom_block (neat mp' i' hi') t' [] d
      rw [List.append_nil] at w w'
      rw [w, w', List.cons.injEq] at e
      simp only [linesFrom, List.append_nil] at e
      obtain rfl := (Prod.mk.inj e.1).2
      obtain ⟨ef, -, ep⟩ := title_shown ht ht'
      refine ⟨?_, lists (d + 1) mp mp' _ _ hp hq hi hi' e.2⟩
      simp [ef, ep (Or.inl rfl)]

theorem inside_data {n : Nat} {z : Zip} {depth : Nat} {p : Pkt (SigAt n)} (h : Inside z (readSigAt n) (Shows n) depth p) (h8 : p.body.tag = 8) : ∃ c x, p.body = .compressed c x ∧ x ≠ [] := by
  cases depth with
  | zero => exact absurd h8 (shows_not_compressed h)
  | succ k =>
    rcases h with h | ⟨c, x, m, hb, hc, -⟩
    · exact absurd h8 (shows_not_compressed h)
    · exact ⟨c, x, hb, hc.1⟩

theorem lists_shown (env : (n : Nat) → ShowEnv (SigAt n)) (ht : ∀ n, Times (env n).time) (n : Nat) (z : Zip) (depth : Nat) : ∀ (d : Nat) (ps qs : List (Pkt (SigAt n))) (l l' : List Act),
    (∀ p ∈ ps, Inside z (readSigAt n) (Shows n) depth p) → (∀ q ∈ qs, Inside z (readSigAt n) (Shows n) depth q) →
    pktsActs (Pkt.acts (env n) (showSig env n) (showCompressed (env n) (showSig env n) z (readSigAt n) depth)) ps = .ok l →
    pktsActs (Pkt.acts (env n) (showSig env n) (showCompressed (env n) (showSig env n) z (readSigAt n) depth)) qs = .ok l' → linesFrom d l = linesFrom d l' →
    List.Forall₂ (Alike z (readSigAt n) depth) ps qs := by
  induction depth with
  | zero =>
    intro d ps qs l l' hp hq h h' e
    rw [pkts_shown env ht n _ d ps qs l l' hp hq h h' e]
    clear h h' e hp hq
    induction qs with
    | nil => exact .nil
    | cons q qs i => exact .cons rfl i
  | succ depth ih =>
    intro d ps qs l l' hp hq h h' e
    refine pkts_related _ (fun p => p.body.acts (env n) (showSig env n) (showCompressed (env n) (showSig env n) z (readSigAt n) (depth + 1))) _ _ (fun p l h => pkt_form h) ?_ d ?_ ps qs l l' hp hq h h' e
    · intro p a _ ha
      exact Body.neat (env n) (showSig env n) _ (showSig_neat env n) _ (fun c d l _ => showCompressed_neat _ _ (showSig_neat env n) z _ _ c d l) (Or.inl rfl) _ ha
    · intro p q t a a' hp hq h1 h1' ha ha' e
      obtain ⟨ef, et, epart⟩ := title_shown h1 h1'
      rcases hp with hp | ⟨c, x, m, hb, hc, hm⟩
      · rcases hq with hq | ⟨c', x', m', hb', -, -⟩
        · exact Or.inl (pkt_shown env ht n _ (d + 1) p q t a a' hp hq h1 h1' ha ha' e)
        · exact absurd (et.trans (by rw [hb']; rfl)) (shows_not_compressed hp)
      · rcases hq with hq | ⟨c', x', m', hb', hc', hm'⟩
        · exact absurd (et.symm.trans (by rw [hb]; rfl)) (shows_not_compressed hq)
        · right
          refine ⟨ef, epart (Or.inl (by rw [hb]; rfl)), ?_⟩
          simp only [hb, hb'] at ha ha'
          obtain ⟨y, k, inner, g1, g2, g3, g4⟩ := compressed_form (env n) (showSig env n) z (readSigAt n) depth c x hc.1 a ha
          obtain ⟨y', k', inner', g1', g2', g3', g4'⟩ := compressed_form (env n) (showSig env n) z (readSigAt n) depth c' x' hc'.1 a' ha'
          obtain ⟨hx, v, hv, hm1⟩ := hc
          obtain ⟨hx', v', hv', hm1'⟩ := hc'
          obtain rfl := Out.ok.inj (g1.symm.trans hv)
          obtain rfl := Out.ok.inj (g1'.symm.trans hv')
          obtain rfl := Out.ok.inj (g2.symm.trans hm1)
          obtain rfl := Out.ok.inj (g2'.symm.trans hm1')
          rw [g4, g4'] at e
          simp only [List.cons.injEq, Prod.mk.injEq, true_and] at e
          obtain rfl := compLine_inj e.1
          obtain ⟨r1, r2⟩ := msg_related (env n) (showSig env n) (showSig_neat env n) z (readSigAt n) depth (d + 1 + 1) (Inside z (readSigAt n) (Shows n) depth) (Alike z (readSigAt n) depth) ih
            (fun p hp h8 => inside_data hp h8) k k' hm hm' inner inner' g3 g3' e.2
          exact ⟨c, x, x', k, k', hb, hb', ⟨hx, y, g1, g2⟩, ⟨hx', y', g1', g2'⟩, r1, r2⟩

/-- **Compressed packets among others.** Two lists of packets of which everything is shown, or which are compressed and everything in them is shown, to any depth, have
the same lines only if they are alike: the same packets, compressed ones with the same algorithm and contents. -/
theorem C66_packed_lines (env : (n : Nat) → ShowEnv (SigAt n)) (ht : ∀ n, Times (env n).time) (n : Nat) (z : Zip) (depth : Nat) (ps qs : List (Pkt (SigAt n)))
    (hp : ∀ p ∈ ps, Inside z (readSigAt n) (Shows n) depth p) (hq : ∀ q ∈ qs, Inside z (readSigAt n) (Shows n) depth q) (l l' : List Act)
    (h : pktsActs (Pkt.acts (env n) (showSig env n) (showCompressed (env n) (showSig env n) z (readSigAt n) depth)) ps = .ok l)
    (h' : pktsActs (Pkt.acts (env n) (showSig env n) (showCompressed (env n) (showSig env n) z (readSigAt n) depth)) qs = .ok l') (e : linesFrom 0 l = linesFrom 0 l') :
    List.Forall₂ (Alike z (readSigAt n) depth) ps qs := lists_shown env ht n z depth 0 ps qs l l' hp hq h h' e

theorem inside_mono {z : Zip} {readE : Bytes → Out E} {good good' : Pkt E → Prop} (hg : ∀ p, good p → good' p) (depth : Nat) : ∀ p, Inside z readE good depth p → Inside z readE good' depth p := by
  induction depth with
  | zero => exact hg
  | succ k ih =>
    rintro p (h | ⟨c, x, m, hb, hc, hm⟩)
    · exact Or.inl (hg p h)
    · exact Or.inr ⟨c, x, m, hb, hc, fun q hq => ih q (hm q hq)⟩

theorem lists_plain (env : (n : Nat) → ShowEnv (SigAt n)) (ht : ∀ n, Times (env n).time) (n : Nat) (z : Zip) (depth : Nat) : ∀ (ps : List (Pkt (SigAt n))) (l : List Act),
    (∀ p ∈ ps, Inside z (readSigAt n) (fun p => Shows n p ∧ OneLine (OneLineSigAt n) p.body) depth p) →
    pktsActs (Pkt.acts (env n) (showSig env n) (showCompressed (env n) (showSig env n) z (readSigAt n) depth)) ps = .ok l → PlainActs l ∧ Neat true l := by
  induction depth with
  | zero =>
    intro ps l hp h
    exact pkts_plain env ht n _ ps l (fun p hpp => ⟨(hp p hpp).1.1, (hp p hpp).2⟩) h
  | succ depth ih =>
    intro ps
    induction ps with
    | nil => intro l _ h; obtain rfl := Out.ok.inj h; exact ⟨plain_nil, neat_nil⟩
    | cons p ps ihp =>
      intro l hp h
      obtain ⟨a, ha, h⟩ := Out.bind_eq_ok.mp h
      obtain ⟨r, hr, h⟩ := Out.bind_eq_ok.mp h
      obtain rfl := Out.ok.inj h
      obtain ⟨t, b, h1, h2, rfl⟩ := pkt_form ha
      obtain ⟨i1, i2⟩ := ihp r (fun x hx => hp x (by simp [hx])) hr
      refine ⟨plain_append.mpr ⟨?_, i1⟩, neat_append (neat_wrap t (Body.neat (env n) (showSig env n) _ (showSig_neat env n) _ (fun c d l _ => showCompressed_neat _ _ (showSig_neat env n) z _ _ c d l) (Or.inl rfl) _ h2)) i2⟩
      simp only [List.cons_append, List.nil_append, plain_line, plain_down, plain_append, plain_up]
      refine ⟨title_plain h1, ?_, plain_nil⟩
      rcases hp p (by simp) with hw | ⟨c, x, m, hb, hc, hm⟩
      · exact body_plain env ht n _ p.body hw.1.1 hw.2 b h2
      · rw [hb] at h2
        have h2 : showCompressed (env n) (showSig env n) z (readSigAt n) (depth + 1) c x = .ok b := h2
        rw [showCompressed] at h2
        obtain ⟨inner, hi, h2⟩ := Out.bind_eq_ok.mp h2
        rw [if_neg hc.1] at hi
        obtain ⟨data, g1, hi⟩ := Out.bind_eq_ok.mp hi
        obtain ⟨m', g2, hi⟩ := Out.bind_eq_ok.mp hi
        obtain ⟨hx, v, hv, hm1⟩ := hc
        obtain rfl := Out.ok.inj (g1.symm.trans hv)
        obtain rfl := Out.ok.inj (g2.symm.trans hm1)
        obtain rfl := Out.ok.inj h2
        have pin : PlainActs inner := by
          obtain ⟨i, hi1, hi⟩ := Out.bind_eq_ok.mp hi
          obtain ⟨pi, -⟩ := ih _ _ hm hi1
          obtain ⟨mc, mp⟩ := m'
          cases mc with
          | none => obtain rfl := Out.ok.inj hi; exact pi
          | some k =>
            obtain ⟨t', ht', hi⟩ := Out.bind_eq_ok.mp hi
            obtain rfl := Out.ok.inj hi
            simp only [List.cons_append, List.nil_append, plain_line, plain_down, plain_append, plain_up]
            exact ⟨title_plain ht', pi, plain_nil⟩
        have hcn : 10 ∉ mapped compNames c.toNat := mapped_line compNames (by decide +kernel) c.toNat
        simp only [List.cons_append, List.nil_append, plain_line, plain_down, plain_append, plain_up]
        refine ⟨?_, ?_, pin, plain_nil⟩
        · simp only [List.append_assoc]
          apply plain_label (by decide +kernel)
          nl
        · constructor <;> decide +kernel

/-- **The text.** If the texts in the packets are on one line each, the same holds of what is printed. -/
theorem C66_packed_text (env : (n : Nat) → ShowEnv (SigAt n)) (ht : ∀ n, Times (env n).time) (n : Nat) (z : Zip) (depth : Nat) (ps qs : List (Pkt (SigAt n)))
    (hp : ∀ p ∈ ps, Inside z (readSigAt n) (fun p => Shows n p ∧ OneLine (OneLineSigAt n) p.body) depth p)
    (hq : ∀ q ∈ qs, Inside z (readSigAt n) (fun p => Shows n p ∧ OneLine (OneLineSigAt n) p.body) depth q) (indents size : Nat) (hs : 1 ≤ size)
    (text : Bytes) (files files' : List (Bytes × Bytes))
    (h : showText (Pkt.acts (env n) (showSig env n) (showCompressed (env n) (showSig env n) z (readSigAt n) depth)) ps indents size = .ok (text, files))
    (h' : showText (Pkt.acts (env n) (showSig env n) (showCompressed (env n) (showSig env n) z (readSigAt n) depth)) qs indents size = .ok (text, files')) :
    List.Forall₂ (Alike z (readSigAt n) depth) ps qs := by
  obtain ⟨l, hl, h⟩ := Out.bind_eq_ok.mp h
  obtain ⟨l', hl', h'⟩ := Out.bind_eq_ok.mp h'
  have h := (Prod.mk.inj (Out.ok.inj h)).1
  have h' := (Prod.mk.inj (Out.ok.inj h')).1
  obtain ⟨p1, p2⟩ := lists_plain env ht n z depth ps l hp hl
  obtain ⟨q1, q2⟩ := lists_plain env ht n z depth qs l' hq hl'
  obtain ⟨-, -, -, r1⟩ := run_layout l (Hr.fresh size indents) 0 0 0 rfl (p2 0)
  obtain ⟨-, -, -, r2⟩ := run_layout l' (Hr.fresh size indents) 0 0 0 rfl (q2 0)
  rw [r1] at h
  rw [r2, ← h] at h'
  have e := List.append_cancel_left h'
  have e := layout_inj (h := { Hr.fresh size indents with level := 0 }) (k := indents * size) (size := size) (flatten_spaces indents size) rfl hs _ _ (plain_lines q1 0) (plain_lines p1 0) e
  exact lists_shown env ht n z depth 0 ps qs l l' (fun p hpp => inside_mono (fun _ h => h.1) depth p (hp p hpp)) (fun q hqq => inside_mono (fun _ h => h.1) depth q (hq q hqq)) hl hl' e.symm

/-! ## Cases -/

/-- Two packets, the first of which is compressed, fulfil the hypotheses, and are shown. -/
example : (∀ p ∈ [⟨.new, false, .compressed 1 (1 :: c66Octets)⟩, c66Literal], Inside demoZip (readSigAt 1) (fun p => Shows 1 p ∧ OneLine (OneLineSigAt 1) p.body) 1 p) ∧
    showText (Pkt.acts (c66Env 1) (showSig c66Env 1) (showCompressed (c66Env 1) (showSig c66Env 1) demoZip (readSigAt 1) 1)) [⟨.new, false, .compressed 1 (1 :: c66Octets)⟩, c66Literal] 0 2 = .ok (ascii
"New: Compressed Data (Tag 8)
  Compression Algorithm: ZIP {RFC1951} (compress 1)
  Compressed Data:
    New: Literal Data (Tag 11)
      Data_Format: Binary
      Data (8 octets):
        Filename: f
        Creation Date: Thur Jan 1 00:00:00 UTC 1970
        Data: hi
New: Literal Data (Tag 11)
  Data_Format: Binary
  Data (8 octets):
    Filename: f
    Creation Date: Thur Jan 1 00:00:00 UTC 1970
    Data: hi
", []) := by
  have hl : Shows 1 c66Literal ∧ OneLine (OneLineSigAt 1) c66Literal.body := ⟨⟨⟨by decide, by decide⟩, by intro h; cases h⟩, by decide +kernel, by decide +kernel⟩
  refine ⟨?_, by decide +kernel⟩
  intro p hp
  simp only [List.mem_cons, List.not_mem_nil, or_false] at hp
  rcases hp with rfl | rfl
  · exact Or.inr ⟨1, _, ⟨none, [c66Literal]⟩, rfl, ⟨by simp, c66Octets, by decide +kernel, by decide +kernel⟩, fun q hq => by rw [List.mem_singleton.mp hq]; exact hl⟩
  · exact Or.inl hl

end OpenPGP
