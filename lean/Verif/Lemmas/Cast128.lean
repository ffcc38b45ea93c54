import Verif.Model.Cast128
import Verif.Lemmas.Blowfish

/-! `CAST128::run` downwards undoes `CAST128::run` upwards. -/
namespace OpenPGP

theorem castLoop_list (o : CastObj) (stop step : UInt8) : ∀ (L : List UInt8) (m : Nat) (i : UInt8) (d : BitVec 32 × BitVec 32),
    L = (List.range L.length).map (fun j => i + UInt8.ofNat j * step) → stop ∉ L →
    stop = i + UInt8.ofNat L.length * step → castLoop o stop step (L.length + 1 + m) i d = .ok (L.foldl (castRound o) d) := by
  intro L
  induction L with
  | nil =>
    intro m i d _ _ h
    have e : stop = i := by simpa using h
    rw [show ([] : List UInt8).length + 1 + m = m + 1 from by simp; omega, castLoop, if_neg (by simp [e])]
    rfl
  | cons a L ih =>
    intro m i d h1 h2 h3
    rw [List.length_cons, List.range_succ_eq_map, List.map_cons, List.map_map] at h1
    obtain ⟨ha, hL⟩ := List.cons.inj h1
    have ha : a = i := by simpa using ha
    subst ha
    rw [List.length_cons, show L.length + 1 + 1 + m = (L.length + 1 + m) + 1 from by omega, castLoop,
      if_pos (by intro h; exact h2 (by simp [h])), List.foldl_cons]
    apply ih
    · refine hL.trans ?_
      congr 1
      funext j
      simp only [Function.comp, Nat.succ_eq_add_one, UInt8.ofNat_add]
      have : UInt8.ofNat 1 = 1 := rfl
      rw [this, UInt8.add_mul, UInt8.one_mul, UInt8.add_comm _ step, UInt8.add_assoc]
    · intro h; exact h2 (by simp [h])
    · rw [h3, List.length_cons, UInt8.ofNat_add]
      have : UInt8.ofNat 1 = 1 := rfl
      rw [this, UInt8.add_mul, UInt8.one_mul, UInt8.add_comm _ step, UInt8.add_assoc]

/-- The rounds of an object. -/
def castUp (o : CastObj) : List UInt8 := (List.range o.rounds.toNat).map fun j => 1 + UInt8.ofNat j

def CastObj.Ready (o : CastObj) : Prop := o.keyset = true ∧ (o.rounds = 12 ∨ o.rounds = 16)

theorem castLoop_up (o : CastObj) (h : o.rounds = 12 ∨ o.rounds = 16) (d : BitVec 32 × BitVec 32) :
    castLoop o (o.rounds + 1) 1 257 1 d = .ok ((castUp o).foldl (castRound o) d) := by
  rcases h with h | h <;> simp only [castUp, h]
  · exact castLoop_list o _ 1 ((List.range 12).map fun j => 1 + UInt8.ofNat j) 244 1 d (by decide +kernel) (by decide +kernel)
      (by decide +kernel)
  · exact castLoop_list o _ 1 ((List.range 16).map fun j => 1 + UInt8.ofNat j) 240 1 d (by decide +kernel) (by decide +kernel)
      (by decide +kernel)

theorem castLoop_down (o : CastObj) (h : o.rounds = 12 ∨ o.rounds = 16) (d : BitVec 32 × BitVec 32) :
    castLoop o 0 255 257 o.rounds d = .ok ((castUp o).reverse.foldl (castRound o) d) := by
  rcases h with h | h <;> simp only [castUp, h]
  · exact castLoop_list o _ 255 ((List.range 12).map fun j => 1 + UInt8.ofNat j).reverse 244 12 d (by decide +kernel)
      (by decide +kernel) (by decide +kernel)
  · exact castLoop_list o _ 255 ((List.range 16).map fun j => 1 + UInt8.ofNat j).reverse 240 16 d (by decide +kernel)
      (by decide +kernel) (by decide +kernel)

theorem castEnc_eq {o : CastObj} (ho : o.Ready) {b : Bytes} (hb : b.length = 8) :
    cast128.encrypt o b = (o, .ok (be 4 ((castUp o).foldl (castRound o) (wordAt 32 b 0 4, wordAt 32 b 4 4)).2.toNat ++
      be 4 ((castUp o).foldl (castRound o) (wordAt 32 b 0 4, wordAt 32 b 4 4)).1.toNat)) := by
  simp only [cast128, castRun, ho.1, hb, Bool.not_true, Bool.false_eq_true, if_false, ne_eq, not_true_eq_false,
    castLoop_up o ho.2, Out.ok_bind]
  rw [unhexlify_append (hexWord _) (hexWord _)]

theorem castDec_eq {o : CastObj} (ho : o.Ready) {b : Bytes} (hb : b.length = 8) :
    cast128.decrypt o b =
      (o, .ok (be 4 ((castUp o).reverse.foldl (castRound o) (wordAt 32 b 0 4, wordAt 32 b 4 4)).2.toNat ++
        be 4 ((castUp o).reverse.foldl (castRound o) (wordAt 32 b 0 4, wordAt 32 b 4 4)).1.toNat)) := by
  simp only [cast128, castRun, ho.1, hb, Bool.not_true, Bool.false_eq_true, if_false, ne_eq, not_true_eq_false,
    castLoop_down o ho.2, Out.ok_bind]
  rw [unhexlify_append (hexWord _) (hexWord _)]

theorem castFold_undo (o : CastObj) (L : List UInt8) (b : Bytes) (hb : b.length = 8) :
    be 4 (L.reverse.foldl (castRound o) ((L.foldl (castRound o) (wordAt 32 b 0 4, wordAt 32 b 4 4)).2,
        (L.foldl (castRound o) (wordAt 32 b 0 4, wordAt 32 b 4 4)).1)).2.toNat ++
      be 4 (L.reverse.foldl (castRound o) ((L.foldl (castRound o) (wordAt 32 b 0 4, wordAt 32 b 4 4)).2,
        (L.foldl (castRound o) (wordAt 32 b 0 4, wordAt 32 b 4 4)).1)).1.toNat = b := by
  have key := feistel_undo (castRound o) Prod.swap (fun x => by cases x; rfl)
    (by
      rintro ⟨l, r⟩ k
      simp only [castRound, Prod.swap, xor_xor_self])
    L (wordAt 32 b 0 4, wordAt 32 b 4 4)
  simp only [Prod.swap] at key
  rw [key]
  exact be_of_words b hb

theorem castSetkey_ok (KEY : Bytes) : ∃ o, cast128.make KEY = .ok o ∧ o.Ready := by
  refine ⟨_, rfl, rfl, ?_⟩
  show (if 10 < KEY.length then (16 : UInt8) else 12) = 12 ∨ (if 10 < KEY.length then (16 : UInt8) else 12) = 16
  split <;> simp

theorem cast128_inverts (KEY : Bytes) : cast128.InvertsWith KEY := by
  obtain ⟨o, ho, hr⟩ := castSetkey_ok KEY
  refine ⟨o, ho, ?_, ?_⟩
  · intro b hb
    have hb : b.length = 8 := by simp only [cast128] at hb; omega
    have e := castEnc_eq hr hb
    have d := castDec_eq hr hb
    have l : ∀ u v : Nat, (be 4 u ++ be 4 v).length = 8 := by intro u v; simp
    have hd : ∀ x, x = (be 4 ((castUp o).foldl (castRound o) (wordAt 32 b 0 4, wordAt 32 b 4 4)).2.toNat ++
        be 4 ((castUp o).foldl (castRound o) (wordAt 32 b 0 4, wordAt 32 b 4 4)).1.toNat) →
        (cast128.decrypt o x).2 = .ok b := by
      intro x hx
      rw [castDec_eq hr (by rw [hx]; exact l _ _)]
      simp only [hx, (words_of_be _ _).1, (words_of_be _ _).2, castFold_undo o _ b hb]
    refine ⟨⟨_, by rw [e], by rw [l, hb], ?_, hd _ rfl⟩, ⟨_, by rw [d], by rw [l, hb], ?_⟩⟩
    · rw [e]
      exact hd _ rfl
    · rw [castEnc_eq hr (l _ _)]
      have := castFold_undo o (castUp o).reverse b hb
      rw [List.reverse_reverse] at this
      simp only [(words_of_be _ _).1, (words_of_be _ _).2, this]
  · intro b hb
    have hb : b.length ≠ 8 := by simp only [cast128] at hb; omega
    simp only [cast128, castRun, hr.1, Bool.not_true, Bool.false_eq_true, if_false, ne_eq, hb, not_false_eq_true, if_true,
      and_self]

theorem cast128_noMemory (KEY : Bytes) : cast128.NoMemoryWith KEY := by
  obtain ⟨o, ho, hr⟩ := castSetkey_ok KEY
  exact ⟨o, ho, noMemory_of_fixed cast128 _ (by rintro (b | b) <;> rfl)⟩

end OpenPGP
