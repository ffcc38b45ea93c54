import Verif.Lemmas.Copy
import Verif.Spec.Memory

/-!
# C60: copies are independent
-/
namespace OpenPGP

/-- A run of a program that has no pointer into `[L, M)`, and cannot get one, does not change the objects there. -/
theorem run_frame {L M : Nat} {s t : ProgState} (hr : ProgRun s t) (hM : M ≤ s.mem.length) (hhas : ∀ a, s.has a → ¬ (L ≤ a ∧ a < M))
    (hptr : ∀ (i : Nat) c, s.mem[i]? = some c → ¬ (L ≤ i ∧ i < M) → ∀ p ∈ c.pointers, ¬ (L ≤ p ∧ p < M)) :
    M ≤ t.mem.length ∧ (∀ a, t.has a → ¬ (L ≤ a ∧ a < M)) ∧
      (∀ (i : Nat) c, t.mem[i]? = some c → ¬ (L ≤ i ∧ i < M) → ∀ p ∈ c.pointers, ¬ (L ≤ p ∧ p < M)) ∧ AgreeOn L M s.mem t.mem := by
  induction hr with
  | stop => exact ⟨hM, hhas, hptr, fun i _ _ => rfl⟩
  | step t u _ hst ih =>
    obtain ⟨i1, i2, i3, i4⟩ := ih
    cases hst with
    | follow a b c ha hc hb =>
      refine ⟨i1, fun x hx => ?_, i3, i4⟩
      rcases hx with hx | rfl
      · exact i2 x hx
      · exact i3 a c hc (i2 a ha) _ hb
    | make c hp =>
      refine ⟨by simp; omega, fun x hx => ?_, fun i c' hi hn => ?_, fun i hi hi' => ?_⟩
      · rcases hx with hx | rfl
        · exact i2 x hx
        · omega
      · simp only at hi
        rw [List.getElem?_append] at hi
        split at hi
        · exact i3 i c' hi hn
        · obtain rfl := List.mem_singleton.mp (List.mem_of_getElem? hi)
          exact fun p hpp => i2 p (hp p hpp)
      · simp only
        rw [List.getElem?_append_left (by omega)]
        exact i4 i hi hi'
    | change a c ha hp =>
      refine ⟨by simpa using i1, i2, fun i c' hi hn => ?_, fun i hi hi' => ?_⟩
      · simp only [List.getElem?_set] at hi
        split at hi
        · split at hi
          · obtain rfl := Option.some.inj hi
            exact fun p hpp => i2 p (hp p hpp)
          · cases hi
        · exact i3 i c' hi hn
      · simp only [List.getElem?_set]
        rw [if_neg (fun e => i2 a ha ⟨by omega, by omega⟩)]
        exact i4 i hi hi'

/-- **A copy is like its original.** `clone()` of a packet of any kind, with any subpackets, images, specifiers and embedded signatures to any depth: the copy holds what
the original holds, and no object that was there before is changed. -/
theorem C60_copy (n : Nat) (h : Heap) (a : Nat) (v : Pkt (SigAt n)) (hv : pktAt h n a = some v) :
    ∃ a' h', clonePkt n h a = .ok (a', h') ∧ pktAt h' n a' = some v ∧ pktAt h' n a = some v ∧ ∀ i < h.length, h'[i]? = h[i]? := by
  obtain ⟨a', h', e, p, -, -, -, r⟩ := copies_pkt n h a v hv
  have ag : AgreeOn 0 h.length h h' := fun i _ hi => prefix_get p hi
  exact ⟨a', h', e, r h' fun i _ _ => rfl, pktAt_local n h h' a v hv ag, fun i hi => prefix_get p hi⟩

theorem clone_list_spec (n : Nat) (h : Heap) (ps : List Nat) (vs : List (Pkt (SigAt n))) (hv : ps.mapM (pktAt h n) = some vs) {ps' : List Nat} {h' : Heap}
    (he : clonePkts n h ps = .ok (ps', h')) : h <+: h' ∧ (∀ a ∈ ps', h.length ≤ a ∧ a < h'.length) ∧ Fresh h.length h' ∧
      ∀ h'', AgreeOn h.length h'.length h' h'' → ps'.mapM (pktAt h'' n) = some vs := by
  obtain ⟨qs, g, e, p, l, f, r⟩ := copies_list (copies_pkt n) (pktAt_local n) ps h vs hv
  have := Out.ok.inj (he.symm.trans e)
  simp only [Prod.mk.injEq] at this
  obtain ⟨rfl, rfl⟩ := this
  exact ⟨p, l, f, r⟩

/-- **Copies of objects.** Copying a `PGP` object, key, message or signature never fails, and the copies of its packets hold what the packets hold. -/
theorem C60_copies (n : Nat) (h : Heap) (ps : List Nat) (vs : List (Pkt (SigAt n))) (hv : ps.mapM (pktAt h n) = some vs) :
    ∃ ps' h', clonePkts n h ps = .ok (ps', h') ∧ ps'.mapM (pktAt h' n) = some vs ∧ ps.mapM (pktAt h' n) = some vs := by
  obtain ⟨qs, g, e, p, -, -, r⟩ := copies_list (copies_pkt n) (pktAt_local n) ps h vs hv
  have ag : AgreeOn 0 h.length h g := fun i _ hi => prefix_get p hi
  exact ⟨qs, g, e, r g fun i _ _ => rfl, mapM_some hv fun a _ b hb => pktAt_local n h g a b hb ag⟩

/-- **Changing the original does not change the copy.** After an object has been copied, whatever a program does with pointers to the objects that were there before (the
original and everything it can reach, and everything else): the copy stays as it was. -/
theorem C60_copy_stays (n : Nat) (h : Heap) (hd : NoDangling h) (ps : List Nat) (vs : List (Pkt (SigAt n))) (hv : ps.mapM (pktAt h n) = some vs) (ps' : List Nat) (h' : Heap)
    (he : clonePkts n h ps = .ok (ps', h')) (t : ProgState) (hr : ProgRun ⟨fun a => a < h.length, h'⟩ t) : ps'.mapM (pktAt t.mem n) = some vs := by
  obtain ⟨p, l, f, r⟩ := clone_list_spec n h ps vs hv he
  refine r t.mem (run_frame (L := h.length) (M := h'.length) hr (le_refl _) (fun a ha => ?_) fun i c hi hn q hq => ?_).2.2.2
  · have : a < h.length := ha
    omega
  · have hil := (List.getElem?_eq_some_iff.mp hi).1
    have hlt : i < h.length := by simp only at hil; omega
    have := hd i c (by rw [← prefix_get p hlt]; exact hi) q hq
    omega

/-- **Changing the copy does not change the original**, nor anything else that was there before: whatever a program does with pointers to the copies, everything that was
there before the copy was made stays as it was. -/
theorem C60_original_stays (n : Nat) (h : Heap) (ps : List Nat) (vs : List (Pkt (SigAt n))) (hv : ps.mapM (pktAt h n) = some vs) (ps' : List Nat) (h' : Heap)
    (he : clonePkts n h ps = .ok (ps', h')) (t : ProgState) (hr : ProgRun ⟨fun a => a ∈ ps', h'⟩ t) :
    (∀ i < h.length, t.mem[i]? = h[i]?) ∧ ∀ (m a : Nat) (v : Pkt (SigAt m)), pktAt h m a = some v → pktAt t.mem m a = some v := by
  obtain ⟨p, l, f, -⟩ := clone_list_spec n h ps vs hv he
  have ag := (run_frame (L := 0) (M := h.length) hr p.length_le (fun a ha => ?_) fun i c hi hn q hq => ?_).2.2.2
  · have key : ∀ i < h.length, t.mem[i]? = h[i]? := fun i hi => (ag i (Nat.zero_le _) hi).trans (prefix_get p hi)
    exact ⟨key, fun m a v hv => pktAt_local m h t.mem a v hv fun i _ hi => key i hi⟩
  · have := l a ha
    omega
  · have := f i c (by omega) hi q hq
    omega

/-! ## A run -/

/-- A signature with a time and an embedded signature, a user attribute and a protected secret key. -/
private def demoHeap : Heap :=
  [.sub ⟨false, .sigTime 7⟩, .sig .new ⟨4, 0x19, 1, 8, [5], [1, 2], 0, [], [], []⟩ [0] [], .sub ⟨false, .embedded (some 1)⟩, .sub ⟨true, .sigTime 9⟩,
   .sig .new ⟨4, 0x18, 1, 8, [6], [3, 4], 0, [], [], []⟩ [3] [2], .attr ⟨false, 1, 1, [9]⟩, .userAttr .old [5], .s2k (.salted 8 [1]), .secret .new false ⟨4, 0, 1, [15, 3], 0⟩ 254 9 (some 7) [0] [1]]

private def demoPkts : List (Pkt (SigAt 1)) :=
  [⟨.new, false, .sig ⟨4, 0x18, 1, 8, [6], [3, 4], 0, [], [⟨true, .sigTime 9⟩], [⟨false, .embedded (some ⟨4, 0x19, 1, 8, [5], [1, 2], 0, [], [⟨false, .sigTime 7⟩], []⟩)⟩]⟩⟩,
   ⟨.old, false, .userAttr [⟨false, 1, 1, [9]⟩]⟩, ⟨.new, false, .secretKey ⟨⟨4, 0, 1, [15, 3], 0⟩, 254, 9, some (.salted 8 [1]), [0], [1]⟩⟩]

/-- The hypotheses of the theorems above. -/
example : [4, 6, 8].mapM (pktAt demoHeap 1) = some demoPkts := by decide +kernel
example : NoDangling demoHeap := by
  intro i c hc p hp
  have hi := (List.getElem?_eq_some_iff.mp hc).1
  have : ∀ i < demoHeap.length, ∀ p ∈ (demoHeap[i]?.map Cell.pointers).getD [], p < demoHeap.length := by decide
  exact this i hi p (by rw [hc]; exact hp)
example : ∃ h', clonePkts 1 demoHeap [4, 6, 8] = .ok ([19, 21, 23], h') := ⟨_, rfl⟩

/-- A program that follows the pointer to the subpacket with the time and changes it: the original changes, the copy does not. -/
example : ∃ h' t, clonePkts 1 demoHeap [4] = .ok ([19], h') ∧ ProgRun ⟨fun a => a < demoHeap.length, h'⟩ t ∧
    [4].mapM (pktAt t.mem 1) ≠ some (demoPkts.take 1) ∧ [19].mapM (pktAt t.mem 1) = some (demoPkts.take 1) := by
  refine ⟨_, _, rfl, .step _ _ _ (.stop _) (.change _ 3 (.sub ⟨true, .sigTime 1000⟩) (by decide) (by simp [Cell.pointers, SubBody.pointers])), ?_, ?_⟩ <;> decide +kernel

/-! ## Assignment of session key packets -/

/-- **Assigning a session key packet.** With both pointers set, the target holds what the source holds. -/
theorem C60_assign (n : Nat) (h : Heap) (dst src : Nat) (f : Fmt) (v s : UInt8) (k e : Option Nat) (hd : h[dst]? = some (.skesk f v s k e)) (p : Tag3) (g : Fmt)
    (hs : pktAt h n src = some ⟨g, false, .skesk p⟩) (hk : p.s2k ≠ none) (he : p.esk ≠ none) :
    ∃ h', assignSkesk h dst src = .ok h' ∧ pktAt h' n dst = some ⟨g, false, .skesk p⟩ := by
  cases hc : h[src]? with
  | none => simp only [pktAt, hc] at hs; cases hs
  | some c =>
    cases c with
    | skesk g' v' s' k' e' =>
      simp only [pktAt, hc] at hs
      split at hs
      swap
      · cases hs
      rename_i x y hx hy
      have hs := Option.some.inj hs
      simp only [Pkt.mk.injEq, Body.skesk.injEq, true_and] at hs
      obtain ⟨rfl, rfl⟩ := hs
      cases k' with
      | none => exact absurd (Option.some.inj hx).symm hk
      | some k' =>
        cases e' with
        | none => exact absurd (Option.some.inj hy).symm he
        | some e' =>
          simp only [ptrAt, Option.map_eq_some_iff] at hx hy
          obtain ⟨x, hx, rfl⟩ := hx
          obtain ⟨y, hy, rfl⟩ := hy
          obtain ⟨k1, h1, e1, p1, l1, u1, -, r1⟩ := copies_s2k h k' x hx
          have a1 : AgreeOn 0 h.length h h1 := fun i _ hi => prefix_get p1 hi
          obtain ⟨k2, h2, e2, p2, l2, u2, -, r2⟩ := copies_text h1 e' y (textAt_local h h1 e' y hy a1)
          have hdl := (List.getElem?_eq_some_iff.mp hd).1
          have n1 := p1.length_le
          have n2 := p2.length_le
          refine ⟨h2.set dst (.skesk g' v' s' (some k1) (some k2)), ?_, ?_⟩
          · rw [assignSkesk, hd, hc]
            simp only [e1, e2, Out.ok_bind, Out.pure_eq]
          · have q1 := r1 (h2.set dst (.skesk g' v' s' (some k1) (some k2))) fun i hi hi' => by
              rw [List.getElem?_set_ne (by omega)]; exact prefix_get p2 hi'
            have q2 := r2 (h2.set dst (.skesk g' v' s' (some k1) (some k2))) fun i hi hi' => by
              rw [List.getElem?_set_ne (by omega)]
            simp only [pktAt, List.getElem?_set_self (by omega : dst < h2.length), ptrAt, q1, q2, Option.map_some]
    | plain q =>
      simp only [pktAt, hc, Option.map_eq_some_iff] at hs
      obtain ⟨b, hb, hs⟩ := hs
      simp only [Pkt.mk.injEq] at hs
      obtain ⟨-, -, rfl⟩ := hs
      revert hb
      cases q.body <;> simp [Body.plain]
    | userAttr f l =>
      simp only [pktAt, hc, Option.map_eq_some_iff] at hs
      obtain ⟨b, hb, hs⟩ := hs
      simp at hs
    | secret f sk key con sym k iv sec =>
      simp only [pktAt, hc] at hs
      split at hs
      · cases sk <;> simp at hs
      · cases hs
    | sig f t hs' us =>
      simp only [pktAt, hc] at hs
      split at hs
      · simp at hs
      · cases hs
    | _ => simp only [pktAt, hc] at hs; cases hs

/-- **A null pointer is followed.** Assigning (`a = b`) a session key packet that has no encrypted session key, as all packets made by `Encrypt::sym` are, or no specifier,
is undefined behaviour. -/
theorem C60_assign_ub (h : Heap) (dst src : Nat) (f : Fmt) (v s : UInt8) (k e : Option Nat) (hs : h[src]? = some (.skesk f v s k e)) (hn : k = none ∨ e = none) :
    assignSkesk h dst src = .ub := by
  rw [assignSkesk, hs]
  rcases hn with rfl | rfl
  · cases h[dst]? with
    | none => rfl
    | some c => cases c <;> rfl
  · cases h[dst]? with
    | none => rfl
    | some c => cases c <;> cases k <;> rfl

/-! ## Embedded signatures -/

/-- **Storing an embedded signature.** Without the second argument `set_embedded` stores a copy, which holds what the signature holds and is a new object. -/
theorem C60_embedded (n : Nat) (h : Heap) (sub e : Nat) (s : Sub Nat) (hs : h[sub]? = some (.sub s)) (v : SigAt n) (hv : sigAt h n e = some v) :
    ∃ h' e', setEmbedded n h sub (some e) false = .ok h' ∧ h'[sub]? = some (.sub ⟨s.critical, .embedded (some e')⟩) ∧ h.length ≤ e' ∧ sigAt h' n e' = some v := by
  obtain ⟨e', h1, e1, p1, l1, u1, -, r1⟩ := copies_sig n h e v hv
  have hl := (List.getElem?_eq_some_iff.mp hs).1
  have n1 := p1.length_le
  refine ⟨h1.set sub (.sub ⟨s.critical, .embedded (some e')⟩), e', ?_, ?_, l1, ?_⟩
  · rw [setEmbedded, hs]
    simp [clonePtr, e1]
  · rw [List.getElem?_set_self (by omega)]
  · exact r1 _ fun i hi hi' => by rw [List.getElem?_set_ne (by omega)]

/-- **The argument `copy` means the opposite.** With `copy = true` nothing is copied: the subpacket has the very pointer of the caller, and a signature put into its own
subpacket can never be copied again. -/
theorem C60_embedded_fails :
    (∀ (n : Nat) (h : Heap) (sub e : Nat) (s : Sub Nat), h[sub]? = some (.sub s) →
      setEmbedded n h sub (some e) true = .ok (h.set sub (.sub ⟨s.critical, .embedded (some e)⟩))) ∧
    ∀ (t : Tag2 Empty) (m : Nat), ∃ h, setEmbedded m [.sig .new t [1] [], .sub ⟨false, .embedded none⟩] 1 (some 0) true = .ok h ∧
      ∀ n, pktAt h n 0 = none ∧ clonePkt n h 0 = .diverge := by
  refine ⟨fun n h sub e s hs => by rw [setEmbedded, hs]; rfl, fun t m => ⟨_, rfl, fun n => ?_⟩⟩
  have h1 : ∀ n, sigAt [.sig .new t [1] [], .sub ⟨false, .embedded (some 0)⟩] n 0 = none := by
    intro n
    induction n with
    | zero => rfl
    | succ n ih => simp [sigAt, subAt, SubBody.value, ih]
  have h2 : ∀ n h, [Cell.sig .new t [1] [], .sub ⟨false, .embedded (some 0)⟩] <+: h → cloneSig n h 0 = .diverge := by
    intro n
    induction n with
    | zero => intro h _; rfl
    | succ n ih =>
      intro h hp
      have g0 := prefix_get hp (i := 0) (by simp)
      have g1 := prefix_get hp (i := 1) (by simp)
      rw [cloneSig, g0]
      simp only [List.getElem?_cons_zero, cloneList, cloneSub, g1, List.getElem?_cons_succ, ih h hp]
      rfl
  refine ⟨?_, ?_⟩
  · simp [pktAt, subAt, SubBody.value, h1]
  · exact h2 (n + 1) _ (List.prefix_refl _)

/-! ## The cost -/

/-- A signature in a signature in a signature, `k` times: the last object is the outermost. -/
def nested (t : Tag2 Empty) : Nat → Heap
  | 0 => [.sig .new t [] []]
  | k + 1 => nested t k ++ [.sub ⟨false, .embedded (some (2 * k))⟩, .sig .new t [2 * k + 1] []]

theorem nested_length (t : Tag2 Empty) (k : Nat) : (nested t k).length = 2 * k + 1 := by
  induction k with
  | zero => rfl
  | succ k ih => simp [nested, ih]; omega

theorem nested_value (t : Tag2 Empty) (k : Nat) (h : Heap) (hp : nested t k <+: h) : ∃ v, sigAt h (k + 1) (2 * k) = some v := by
  induction k with
  | zero =>
    have g := prefix_get hp (i := 0) (by simp [nested])
    simp only [Nat.mul_zero, sigAt, g, nested, List.getElem?_cons_zero, List.mapM_nil]
    exact ⟨_, rfl⟩
  | succ k ih =>
    obtain ⟨v, hv⟩ := ih ((List.prefix_append _ _).trans hp)
    have hl := nested_length t k
    have g1 := prefix_get hp (i := 2 * k + 1) (by simp [nested, hl])
    have g2 := prefix_get hp (i := 2 * (k + 1)) (by simp [nested, hl]; omega)
    rw [nested, List.getElem?_append_right (by omega), hl, Nat.sub_self] at g1
    rw [nested, List.getElem?_append_right (by omega), hl, show 2 * (k + 1) - (2 * k + 1) = 1 by omega] at g2
    simp only [List.getElem?_cons_zero, List.getElem?_cons_succ] at g1 g2
    rw [sigAt, g2]
    simp only [List.mapM_cons, List.mapM_nil, subAt, g1, SubBody.value, hv]
    exact ⟨_, rfl⟩

theorem nested_clone (t : Tag2 Empty) (k : Nat) (h : Heap) (hp : nested t k <+: h) :
    ∃ a' h', cloneSig (k + 1) h (2 * k) = .ok (a', h') ∧ h <+: h' ∧ h.length + 2 ^ k ≤ h'.length := by
  induction k generalizing h with
  | zero =>
    have g := prefix_get hp (i := 0) (by simp [nested])
    refine ⟨h.length, h ++ [.sig .new t [] []], ?_, List.prefix_append _ _, by simp⟩
    simp only [cloneSig, Nat.mul_zero, g, nested, List.getElem?_cons_zero, cloneList, Out.ok_bind]
    rfl
  | succ k ih =>
    have hl := nested_length t k
    have hp' := (List.prefix_append _ _).trans hp
    have cells : ∀ g : Heap, h <+: g → g[2 * k + 1]? = some (.sub ⟨false, .embedded (some (2 * k))⟩) ∧ g[2 * (k + 1)]? = some (.sig .new t [2 * k + 1] []) := by
      intro g hg
      have g1 := prefix_get (hp.trans hg) (i := 2 * k + 1) (by simp [nested, hl])
      have g2 := prefix_get (hp.trans hg) (i := 2 * (k + 1)) (by simp [nested, hl]; omega)
      rw [nested, List.getElem?_append_right (by omega), hl, Nat.sub_self] at g1
      rw [nested, List.getElem?_append_right (by omega), hl, show 2 * (k + 1) - (2 * k + 1) = 1 by omega] at g2
      exact ⟨g1, g2⟩
    have sub : ∀ g : Heap, h <+: g → ∃ a' g', cloneSub (cloneSig (k + 1)) g (2 * k + 1) = .ok (a', g') ∧ g <+: g' ∧ g.length + 2 ^ k ≤ g'.length := by
      intro g hg
      obtain ⟨a', g', e, p, l⟩ := ih g (hp'.trans hg)
      refine ⟨g'.length, g' ++ [.sub ⟨false, .embedded (some a')⟩], ?_, p.trans (List.prefix_append _ _), by simp; omega⟩
      rw [cloneSub, (cells g hg).1]
      simp only [e, Out.ok_bind]
      rfl
    obtain ⟨a1, h1, e1, p1, l1⟩ := sub h (List.prefix_refl _)
    obtain ⟨a2, h2, e2, p2, l2⟩ := sub h1 p1
    refine ⟨h2.length, h2 ++ [.sig .new t [a2] []], ?_, (p1.trans p2).trans (List.prefix_append _ _), ?_⟩
    · rw [cloneSig, (cells h (List.prefix_refl _)).2]
      simp only [cloneList, e1, e2, Out.ok_bind, Out.pure_eq, alloc]
    · simp only [List.length_append, List.length_singleton, Nat.pow_succ]
      omega

/-- **Copying takes exponential time.** `Tag2::clone` clones the subpackets twice, and so the embedded signature in each of them: to copy a signature with `k` signatures in
one another, which are `2 k + 1` objects, more than `2 ^ k` objects are made. -/
theorem C60_nested_fails (t : Tag2 Empty) (k : Nat) : ∃ h a, h.length = 2 * k + 1 ∧ (∃ v, pktAt h k a = some v) ∧
    ∃ a' h', clonePkt k h a = .ok (a', h') ∧ h.length + 2 ^ k ≤ h'.length := by
  refine ⟨nested t k, 2 * k, nested_length t k, ?_, ?_⟩
  · obtain ⟨v, hv⟩ := nested_value t k _ (List.prefix_refl _)
    rw [sigAt] at hv
    split at hv
    · rename_i f t' hs us hc
      split at hv
      · rename_i x y hx hy
        rw [pktAt, hc]
        simp only [hx, hy]
        exact ⟨_, rfl⟩
      · cases hv
    · cases hv
  · obtain ⟨a', h', e, -, l⟩ := nested_clone t k _ (List.prefix_refl _)
    refine ⟨a', h', ?_, l⟩
    have hc : ∃ f t' hs us, (nested t k)[2 * k]? = some (.sig f t' hs us) := by
      obtain ⟨v, hv⟩ := nested_value t k _ (List.prefix_refl _)
      rw [sigAt] at hv
      split at hv
      · rename_i f t' hs us hc
        exact ⟨f, t', hs, us, hc⟩
      · cases hv
    obtain ⟨f, t', hs, us, hc⟩ := hc
    rw [clonePkt, hc]
    exact e

end OpenPGP
