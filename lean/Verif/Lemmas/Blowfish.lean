import Verif.Model.Blowfish
import Verif.Lemmas.Des

/-! `Blowfish::run` with the reversed `p` undoes `Blowfish::run`. -/
namespace OpenPGP

/-- A round with the subkey given. -/
def bfStep (sbox : List (BitVec 32)) (d : BitVec 32 × BitVec 32) (k : BitVec 32) : BitVec 32 × BitVec 32 :=
  (d.2 ^^^ bfF sbox (d.1 ^^^ k), d.1 ^^^ k)

theorem bfStep_back (sbox : List (BitVec 32)) (x : BitVec 32 × BitVec 32) (k a b : BitVec 32) :
    bfStep sbox ((bfStep sbox x k).2 ^^^ b, (bfStep sbox x k).1 ^^^ a) b = (x.2 ^^^ a, x.1 ^^^ k) := by
  simp only [bfStep, xor_xor_self]
  rw [BitVec.xor_assoc (x.2 ^^^ bfF sbox (x.1 ^^^ k)), BitVec.xor_comm a, ← BitVec.xor_assoc, xor_xor_self]

theorem bfSteps_back (sbox : List (BitVec 32)) (ks : List (BitVec 32)) (x : BitVec 32 × BitVec 32) :
    ∀ a b : BitVec 32,
    ((b :: a :: ks.reverse).take ks.length).foldl (bfStep sbox)
        ((ks.foldl (bfStep sbox) x).2 ^^^ b, (ks.foldl (bfStep sbox) x).1 ^^^ a) =
      (x.2 ^^^ (ks ++ [a, b]).getD 1 0, x.1 ^^^ (ks ++ [a, b]).getD 0 0) := by
  induction ks using List.reverseRecOn with
  | nil => intro a b; simp
  | append_singleton ks k ih =>
    intro a b
    have ih' := ih k a
    simp only [List.reverse_append, List.reverse_cons, List.reverse_nil, List.nil_append, List.length_append,
      List.length_singleton, List.singleton_append, List.take_succ_cons, List.foldl_cons, List.foldl_append,
      List.foldl_nil] at ih' ⊢
    rw [bfStep_back, ih']
    cases ks with
    | nil => simp
    | cons k0 ks =>
      cases ks <;> simp

theorem bfFold_eq (p sbox : List (BitVec 32)) (hp : p.length = 18) (x : BitVec 32 × BitVec 32) :
    (List.range 16).foldl (bfRound p sbox) x = (p.take 16).foldl (bfStep sbox) x := by
  have e : p.take 16 = (List.range 16).map fun i => p.getD i 0 := by
    apply List.ext_getElem
    · simp [hp]
    · intro i h1 h2
      have : i < p.length := by simp at h1; omega
      simp [this]
  rw [e, List.foldl_map]
  rfl

theorem bfBlock_eq (p sbox : List (BitVec 32)) (hp : p.length = 18) (b : Bytes) :
    bfBlock p sbox b =
      .ok (be 4 (((p.take 16).foldl (bfStep sbox) (wordAt 32 b 0 4, wordAt 32 b 4 4)).2 ^^^ p.getD 17 0).toNat ++
        be 4 (((p.take 16).foldl (bfStep sbox) (wordAt 32 b 0 4, wordAt 32 b 4 4)).1 ^^^ p.getD 16 0).toNat) := by
  unfold bfBlock
  rw [bfFold_eq p sbox hp]
  exact unhexlify_append (hexWord _) (hexWord _)

theorem words_of_be (u v : BitVec 32) :
    wordAt 32 (be 4 u.toNat ++ be 4 v.toNat) 0 4 = u ∧ wordAt 32 (be 4 u.toNat ++ be 4 v.toNat) 4 4 = v := by
  have h0 := wordAt_be4 [] (be 4 v.toNat) u 0 rfl
  have h1 := wordAt_be4 (be 4 u.toNat) [] v 4 (by simp)
  simp only [List.nil_append, List.append_nil] at h0 h1
  exact ⟨h0, h1⟩

theorem be_of_words (b : Bytes) (hb : b.length = 8) :
    be 4 (wordAt 32 b 0 4).toNat ++ be 4 (wordAt 32 b 4 4).toNat = b := by
  rw [be4_wordAt _ _ (by omega), be4_wordAt _ _ (by omega), List.drop_zero]
  have : (b.drop 4).take 4 = b.drop 4 := List.take_of_length_le (by simp; omega)
  rw [this, List.take_append_drop]

theorem list18_split (p : List (BitVec 32)) (hp : p.length = 18) :
    p = p.take 16 ++ [p.getD 16 0, p.getD 17 0] := by
  conv_lhs => rw [← List.take_append_drop 16 p]
  congr 1
  apply List.ext_getElem
  · simp [hp]
  · intro i h1 h2
    simp only [List.length_cons, List.length_nil] at h2
    interval_cases i <;> simp [hp]

theorem bfBlock_undo (p sbox : List (BitVec 32)) (hp : p.length = 18) (b e : Bytes) (hb : b.length = 8)
    (h : bfBlock p sbox b = .ok e) : bfBlock p.reverse sbox e = .ok b := by
  rw [bfBlock_eq p sbox hp] at h
  obtain rfl := Out.ok.inj h
  rw [bfBlock_eq _ sbox (by simp [hp])]
  set x := (wordAt 32 b 0 4, wordAt 32 b 4 4) with hx
  set y := (p.take 16).foldl (bfStep sbox) x with hy
  rw [(words_of_be _ _).1, (words_of_be _ _).2]
  have key := bfSteps_back sbox (p.take 16) x (p.getD 16 0) (p.getD 17 0)
  rw [← list18_split p hp, ← hy] at key
  have e1 : p.getD 17 0 :: p.getD 16 0 :: (p.take 16).reverse = p.reverse := by
    conv_rhs => rw [list18_split p hp]
    simp
  have e2 : (p.take 16).length = 16 := by simp [hp]
  rw [e1, e2] at key
  rw [key]
  have g17 : p.reverse.getD 17 0 = p.getD 0 0 := by
    simp [List.getD_eq_getElem?_getD, hp]
  have g16 : p.reverse.getD 16 0 = p.getD 1 0 := by
    simp [List.getD_eq_getElem?_getD, hp]
  rw [g17, g16]
  simp only [xor_xor_self]
  rw [hx, be_of_words b hb]

theorem bfBlock_ok (p sbox : List (BitVec 32)) (hp : p.length = 18) (b : Bytes) :
    ∃ e, bfBlock p sbox b = .ok e ∧ e.length = 8 :=
  ⟨_, bfBlock_eq p sbox hp b, by simp⟩

/-- The two flags agree with `run`'s first check. -/
def BfObj.Ready (o : BfObj) : Prop := o.settingkey = (!o.keyset) ∧ o.p.length = 18

theorem bfRun_ready {o : BfObj} (ho : o.Ready) {b : Bytes} (hb : b.length = 8) : bfRun o b = bfBlock o.p o.sbox b := by
  simp [bfRun, ho.1, hb]

theorem bfFillP_ok (n : Nat) : ∀ (x : Nat) (o : BfObj) (ini : Bytes), o.Ready → ini.length = 8 →
    ∃ o' e, bfFillP n x o ini = .ok (o', e) ∧ o'.Ready ∧ o'.keyset = o.keyset ∧ e.length = 8 := by
  induction n with
  | zero => intro x o ini ho hi; exact ⟨o, ini, rfl, ho, rfl, hi⟩
  | succ n ih =>
    intro x o ini ho hi
    obtain ⟨e, he, hl⟩ := bfBlock_ok o.p o.sbox ho.2 ini
    rw [← bfRun_ready ho hi] at he
    obtain ⟨o', e', h1, h2, h3, h4⟩ := ih (x + 1)
      { o with p := (o.p.set (2 * x) (wordAt 32 e 0 4)).set (2 * x + 1) (wordAt 32 e 4 4) } e
      ⟨ho.1, by simp [ho.2]⟩ hl
    refine ⟨o', e', ?_, h2, h3, h4⟩
    simp only [bfFillP, he, Out.ok_bind]
    exact h1

theorem bfFillS_ok (n : Nat) : ∀ (x : Nat) (o : BfObj) (ini : Bytes), o.Ready → ini.length = 8 →
    ∃ o', bfFillS n x o ini = .ok o' ∧ o'.Ready ∧ o'.keyset = o.keyset := by
  induction n with
  | zero => intro x o ini ho hi; exact ⟨o, rfl, ho, rfl⟩
  | succ n ih =>
    intro x o ini ho hi
    obtain ⟨e, he, hl⟩ := bfBlock_ok o.p o.sbox ho.2 ini
    rw [← bfRun_ready ho hi] at he
    simp only [bfFillS, he, Out.ok_bind]
    exact ih (x + 1) _ e ⟨ho.1, ho.2⟩ hl

theorem bfSetkey_ok (KEY : Bytes) (h4 : 4 ≤ KEY.length) (h112 : KEY.length ≤ 112) :
    ∃ o, blowfish.make KEY = .ok o ∧ o.Ready ∧ o.keyset = true := by
  simp only [SymCipher.make, blowfish, bfSetkey]
  rw [if_neg (by simp), if_neg (by omega)]
  obtain ⟨o1, e1, a1, a2, a3, a4⟩ := bfFillP_ok 9 0
    { keyset := false, settingkey := true,
      p := (List.range 18).map fun x => bfP.getD x 0 ^^^
        wordAt 32 ((bfDouble (72 / KEY.length + 1) KEY).take 72) (4 * x) 4, sbox := bfSBox }
    (List.replicate 8 0) ⟨rfl, by simp⟩ (by simp)
  obtain ⟨o2, b1, b2, b3⟩ := bfFillS_ok 512 0 o1 e1 a2 a4
  rw [a1, Out.ok_bind]
  simp only [b1, Out.ok_bind]
  exact ⟨_, rfl, ⟨rfl, b2.2⟩, rfl⟩

theorem bfDecrypt_eq {o : BfObj} (ho : o.Ready) {b : Bytes} (hb : b.length = 8) :
    blowfish.decrypt o b = (o, bfBlock o.p.reverse o.sbox b) := by
  have ho' : BfObj.Ready { o with p := o.p.reverse } := ⟨ho.1, by simp [ho.2]⟩
  obtain ⟨e, he, _⟩ := bfBlock_ok o.p.reverse o.sbox (by simp [ho.2]) b
  simp only [blowfish, bfDecrypt, bfRun_ready ho' hb, he, List.reverse_reverse]

theorem blowfish_inverts (KEY : Bytes) (h4 : 4 ≤ KEY.length) (h112 : KEY.length ≤ 112) :
    blowfish.InvertsWith KEY := by
  obtain ⟨o, ho, hr, hk⟩ := bfSetkey_ok KEY h4 h112
  have hr' : o.p.reverse.length = 18 := by simp [hr.2]
  have enc : ∀ {b : Bytes}, b.length = 8 → blowfish.encrypt o b = (o, bfBlock o.p o.sbox b) :=
    fun hb => by simp only [blowfish, bfRun_ready hr hb]
  refine ⟨o, ho, ?_, ?_⟩
  · intro b hb
    have hb : b.length = 8 := by simp only [blowfish] at hb; omega
    obtain ⟨e, he, hl⟩ := bfBlock_ok o.p o.sbox hr.2 b
    obtain ⟨d, hd, hl'⟩ := bfBlock_ok o.p.reverse o.sbox hr' b
    have u1 := bfBlock_undo _ _ hr.2 _ _ hb he
    have u2 := bfBlock_undo _ _ hr' _ _ hb hd
    rw [List.reverse_reverse] at u2
    refine ⟨⟨e, ?_, by omega, ?_, ?_⟩, ⟨d, ?_, by omega, ?_⟩⟩
    · rw [enc hb, he]
    · rw [enc hb, bfDecrypt_eq hr hl, u1]
    · rw [bfDecrypt_eq hr hl, u1]
    · rw [bfDecrypt_eq hr hb, hd]
    · rw [enc hl', u2]
  · intro b hb
    have hb : b.length ≠ 8 := by simp only [blowfish] at hb; omega
    simp only [blowfish, bfRun, bfDecrypt, hr.1, hb, Bool.xor_self, Bool.false_eq_true, if_false, ne_eq, not_false_eq_true, if_true, and_self]

theorem blowfish_noMemoryOnBlocks (KEY : Bytes) (h4 : 4 ≤ KEY.length) (h112 : KEY.length ≤ 112) :
    blowfish.NoMemoryOnBlocksWith KEY := by
  obtain ⟨o, ho, hr, hk⟩ := bfSetkey_ok KEY h4 h112
  refine ⟨o, ho, noMemoryOnBlocks_of_fixed blowfish o ?_ ?_⟩
  · intro b hb; rfl
  · intro b hb
    rw [bfDecrypt_eq hr (by simp only [blowfish] at hb; omega)]

end OpenPGP
