import Verif.Model.Twofish
import Verif.Lemmas.Blowfish

/-! `Twofish::run` for decryption undoes `Twofish::run` for encryption. -/
namespace OpenPGP

/-- The two halves exchanged. -/
def Quad.swap (q : Quad) : Quad := ⟨q.c, q.d, q.a, q.b⟩

theorem Quad.swap_swap (q : Quad) : q.swap.swap = q := rfl

theorem Quad.swap_xor (q k : Quad) : (q.xor k).swap = q.swap.xor k.swap := rfl

/-- Rounds undone by other rounds with the halves exchanged. -/
theorem feistel_undo₂ {σ β : Type} (f g : σ → β → σ) (sw : σ → σ) (h2 : ∀ x, sw (sw x) = x)
    (h : ∀ x k, sw (g (sw (f x k)) k) = x) (L : List β) (x : σ) :
    L.reverse.foldl g (sw (L.foldl f x)) = sw x := by
  have hom := foldl_hom' sw (fun z k => sw (g (sw z) k)) g (fun z k => by simp [h2]) L.reverse (L.foldl f x)
  rw [← hom, foldl_undo f (fun z k => sw (g (sw z) k)) h]

theorem tfDec_enc (o : TfObj) (q : Quad) (i : Nat) : (tfDecRound o (tfEncRound o q i).swap i).swap = q := by
  simp only [tfDecRound, tfEncRound, Quad.swap]
  simp only [rol_ror (w := 32) (by norm_num) _ 1 (by norm_num) (by norm_num),
    ror_rol (w := 32) (by norm_num) _ 1 (by norm_num) (by norm_num), xor_xor_self]

theorem tfEnc_dec (o : TfObj) (q : Quad) (i : Nat) : (tfEncRound o (tfDecRound o q i).swap i).swap = q := by
  simp only [tfDecRound, tfEncRound, Quad.swap]
  simp only [rol_ror (w := 32) (by norm_num) _ 1 (by norm_num) (by norm_num),
    ror_rol (w := 32) (by norm_num) _ 1 (by norm_num) (by norm_num), xor_xor_self]

/-- The octets of four words, the low octets first. -/
def quadLE (q : Quad) : Bytes :=
  (be 4 q.a.toNat).reverse ++ (be 4 q.b.toNat).reverse ++ (be 4 q.c.toNat).reverse ++ (be 4 q.d.toNat).reverse

theorem quadLE_length (q : Quad) : (quadLE q).length = 16 := by simp [quadLE]

theorem tfOut_ok (q : Quad) : tfOut q = .ok (quadLE q) := by
  unfold tfOut
  exact unhexlify_append (unhexlify_append (unhexlify_append (littleEndHex_ok _) (littleEndHex_ok _))
    (littleEndHex_ok _)) (littleEndHex_ok _)

theorem wordLE_be4 (pre post : Bytes) (w : BitVec 32) (p : Nat) (hp : pre.length = p) :
    wordLE (pre ++ ((be 4 w.toNat).reverse ++ post)) p = w := by
  subst hp
  have hl : (be 4 w.toNat).reverse.length = 4 := by simp
  unfold wordLE littleEnd256
  rw [List.drop_left, List.take_left' hl, List.reverse_reverse, toint256_be4 _ w.isLt]
  simp

theorem be4_wordLE (d : Bytes) (p : Nat) (h : p + 4 ≤ d.length) :
    (be 4 (wordLE d p).toNat).reverse = (d.drop p).take 4 := by
  have hl : ((d.drop p).take 4).reverse.length = 4 := by simp; omega
  unfold wordLE littleEnd256
  rw [toint256_small _ (by omega), BitVec.toNat_ofNat]
  have := num_lt ((d.drop p).take 4).reverse
  rw [hl] at this
  rw [Nat.mod_eq_of_lt (by simpa using this)]
  have e := be_num ((d.drop p).take 4).reverse
  rw [hl] at e
  rw [e, List.reverse_reverse]

theorem tfIn_LE (q : Quad) : tfIn (quadLE q) = q := by
  have h0 := wordLE_be4 [] ((be 4 q.b.toNat).reverse ++ (be 4 q.c.toNat).reverse ++ (be 4 q.d.toNat).reverse) q.a 0 rfl
  have h1 := wordLE_be4 (be 4 q.a.toNat).reverse ((be 4 q.c.toNat).reverse ++ (be 4 q.d.toNat).reverse) q.b 4 (by simp)
  have h2 := wordLE_be4 ((be 4 q.a.toNat).reverse ++ (be 4 q.b.toNat).reverse) (be 4 q.d.toNat).reverse q.c 8 (by simp)
  have h3 := wordLE_be4 ((be 4 q.a.toNat).reverse ++ (be 4 q.b.toNat).reverse ++ (be 4 q.c.toNat).reverse) [] q.d 12
    (by simp)
  simp only [List.append_assoc, List.nil_append, List.append_nil] at h0 h1 h2 h3
  simp [tfIn, quadLE, List.append_assoc, h0, h1, h2, h3]

theorem LE_tfIn (d : Bytes) (h : d.length = 16) : quadLE (tfIn d) = d := by
  simp only [quadLE, tfIn]
  rw [be4_wordLE _ _ (by omega), be4_wordLE _ _ (by omega), be4_wordLE _ _ (by omega), be4_wordLE _ _ (by omega)]
  have e1 : (d.drop 12).take 4 = d.drop 12 := List.take_of_length_le (by simp; omega)
  rw [e1, show d.drop 12 = (d.drop 8).drop 4 by simp, List.append_assoc, List.take_append_drop,
    show d.drop 8 = (d.drop 4).drop 4 by simp, List.append_assoc, List.take_append_drop,
    show d.drop 4 = (d.drop 0).drop 4 by simp, List.take_append_drop, List.drop_zero]

theorem tfBlock_ok (o : TfObj) (b : Bytes) (m : Bool) : ∃ e, tfBlock o b m = .ok e ∧ e.length = 16 :=
  ⟨_, tfOut_ok _, quadLE_length _⟩

/-- `run` in one direction undoes `run` in the other. -/
theorem tfBlock_undo (o : TfObj) (b e : Bytes) (m : Bool) (hb : b.length = 16) (h : tfBlock o b m = .ok e) :
    tfBlock o e (!m) = .ok b := by
  cases m with
  | true =>
    simp only [tfBlock, tfOut_ok, if_true] at h
    obtain rfl := Out.ok.inj h
    simp only [tfBlock, tfOut_ok, tfIn_LE, Bool.not_true, Bool.false_eq_true, if_false]
    set x := (tfIn b).xor ⟨tfL o 0, tfL o 1, tfL o 2, tfL o 3⟩ with hx
    have key := feistel_undo₂ (tfEncRound o) (tfDecRound o) Quad.swap Quad.swap_swap (tfDec_enc o) (List.range 8) x
    set y := (List.range 8).foldl (tfEncRound o) x with hy
    have e1 : Quad.xor ⟨(y.xor ⟨tfL o 6, tfL o 7, tfL o 4, tfL o 5⟩).c, (y.xor ⟨tfL o 6, tfL o 7, tfL o 4, tfL o 5⟩).d,
        (y.xor ⟨tfL o 6, tfL o 7, tfL o 4, tfL o 5⟩).a, (y.xor ⟨tfL o 6, tfL o 7, tfL o 4, tfL o 5⟩).b⟩
        ⟨tfL o 4, tfL o 5, tfL o 6, tfL o 7⟩ = y.swap := by
      simp [Quad.xor, Quad.swap, xor_xor_self]
    rw [e1, key, hx]
    have e2 : ∀ q : Quad, (⟨((q.xor ⟨tfL o 0, tfL o 1, tfL o 2, tfL o 3⟩).swap.xor ⟨tfL o 2, tfL o 3, tfL o 0, tfL o 1⟩).c,
        ((q.xor ⟨tfL o 0, tfL o 1, tfL o 2, tfL o 3⟩).swap.xor ⟨tfL o 2, tfL o 3, tfL o 0, tfL o 1⟩).d,
        ((q.xor ⟨tfL o 0, tfL o 1, tfL o 2, tfL o 3⟩).swap.xor ⟨tfL o 2, tfL o 3, tfL o 0, tfL o 1⟩).a,
        ((q.xor ⟨tfL o 0, tfL o 1, tfL o 2, tfL o 3⟩).swap.xor ⟨tfL o 2, tfL o 3, tfL o 0, tfL o 1⟩).b⟩ : Quad) = q := by
      intro q
      simp [Quad.xor, Quad.swap, xor_xor_self]
    rw [e2, LE_tfIn b hb]
  | false =>
    simp only [tfBlock, tfOut_ok, Bool.false_eq_true, if_false] at h
    obtain rfl := Out.ok.inj h
    simp only [tfBlock, tfOut_ok, tfIn_LE, Bool.not_false, if_true]
    set x := (tfIn b).xor ⟨tfL o 4, tfL o 5, tfL o 6, tfL o 7⟩ with hx
    have key := feistel_undo₂ (tfDecRound o) (tfEncRound o) Quad.swap Quad.swap_swap (tfEnc_dec o) (List.range 8).reverse x
    rw [List.reverse_reverse] at key
    set y := (List.range 8).reverse.foldl (tfDecRound o) x with hy
    have e1 : Quad.xor ⟨(y.xor ⟨tfL o 2, tfL o 3, tfL o 0, tfL o 1⟩).c, (y.xor ⟨tfL o 2, tfL o 3, tfL o 0, tfL o 1⟩).d,
        (y.xor ⟨tfL o 2, tfL o 3, tfL o 0, tfL o 1⟩).a, (y.xor ⟨tfL o 2, tfL o 3, tfL o 0, tfL o 1⟩).b⟩
        ⟨tfL o 0, tfL o 1, tfL o 2, tfL o 3⟩ = y.swap := by
      simp [Quad.xor, Quad.swap, xor_xor_self]
    rw [e1, key, hx]
    have e2 : ∀ q : Quad, (⟨((q.xor ⟨tfL o 4, tfL o 5, tfL o 6, tfL o 7⟩).swap.xor ⟨tfL o 6, tfL o 7, tfL o 4, tfL o 5⟩).c,
        ((q.xor ⟨tfL o 4, tfL o 5, tfL o 6, tfL o 7⟩).swap.xor ⟨tfL o 6, tfL o 7, tfL o 4, tfL o 5⟩).d,
        ((q.xor ⟨tfL o 4, tfL o 5, tfL o 6, tfL o 7⟩).swap.xor ⟨tfL o 6, tfL o 7, tfL o 4, tfL o 5⟩).a,
        ((q.xor ⟨tfL o 4, tfL o 5, tfL o 6, tfL o 7⟩).swap.xor ⟨tfL o 6, tfL o 7, tfL o 4, tfL o 5⟩).b⟩ : Quad) = q := by
      intro q
      simp [Quad.xor, Quad.swap, xor_xor_self]
    rw [e2, LE_tfIn b hb]

theorem tfSetkey_ok (KEY : Bytes) (h : KEY.length % 256 = 16 ∨ KEY.length % 256 = 24 ∨ KEY.length % 256 = 32) :
    ∃ o, twofish.make KEY = .ok o ∧ o.keyset = true := by
  simp only [SymCipher.make, twofish, tfSetkey]
  rw [if_neg (by simp), if_neg (by omega)]
  exact ⟨_, rfl, rfl⟩

theorem tfRun_eq {o : TfObj} (hs : o.keyset = true) {b : Bytes} (hb : b.length = 16) (m : Bool) :
    tfRun o b m = tfBlock o b m := by
  simp [tfRun, hs, hb]

theorem twofish_inverts (KEY : Bytes) (h : KEY.length % 256 = 16 ∨ KEY.length % 256 = 24 ∨ KEY.length % 256 = 32) :
    twofish.InvertsWith KEY := by
  obtain ⟨o, ho, hs⟩ := tfSetkey_ok KEY h
  refine ⟨o, ho, ?_, ?_⟩
  · intro b hb
    have hb : b.length = 16 := by simp only [twofish] at hb; omega
    obtain ⟨e, he, hl⟩ := tfBlock_ok o b true
    obtain ⟨d, hd, hl'⟩ := tfBlock_ok o b false
    have u1 := tfBlock_undo _ _ _ _ hb he
    have u2 := tfBlock_undo _ _ _ _ hb hd
    have u3 : (twofish.decrypt o e).2 = .ok b := by simp only [twofish, tfRun_eq hs hl]; exact u1
    refine ⟨⟨e, ?_, by omega, u3, u3⟩, ⟨d, ?_, by omega, ?_⟩⟩
    · simp only [twofish, tfRun_eq hs hb]; exact he
    · simp only [twofish, tfRun_eq hs hb]; exact hd
    · simp only [twofish, tfRun_eq hs hl']; exact u2
  · intro b hb
    have hb : b.length ≠ 16 := by simp only [twofish] at hb; omega
    simp [twofish, tfRun, hs, hb]

theorem twofish_noMemory (KEY : Bytes) (h : KEY.length % 256 = 16 ∨ KEY.length % 256 = 24 ∨ KEY.length % 256 = 32) :
    twofish.NoMemoryWith KEY := by
  obtain ⟨o, ho, hs⟩ := tfSetkey_ok KEY h
  exact ⟨o, ho, noMemory_of_fixed twofish _ (by rintro (b | b) <;> rfl)⟩

end OpenPGP
