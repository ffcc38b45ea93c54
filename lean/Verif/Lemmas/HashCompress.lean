import Verif.Lemmas.HashWords

/-! The code's block functions compute the standards' compression functions. -/
namespace OpenPGP

/-- The octets of every four-octet word reversed. -/
def leWords : Bytes → Bytes
  | a :: b :: c :: d :: r => d :: c :: b :: a :: leWords r
  | _ => []

theorem leWords_length (b : Bytes) : (leWords b).length = b.length / 4 * 4 := by
  induction b using leWords.induct with
  | case1 a b c d r ih => simp only [leWords, List.length_cons, ih]; omega
  | case2 b h =>
    rw [leWords]
    · rcases b with _ | ⟨a, _ | ⟨b, _ | ⟨c, _ | ⟨d, r⟩⟩⟩⟩ 
      · simp
      · simp
      · simp
      · simp
      · exact (h _ _ _ _ _ rfl).elim
    · exact h

theorem leWords_append (a b : Bytes) (k : Nat) (h : a.length = 4 * k) : leWords (a ++ b) = leWords a ++ leWords b := by
  induction k generalizing a with
  | zero =>
    have : a = [] := List.length_eq_zero_iff.mp (by omega)
    subst this; rfl
  | succ k ih =>
    rcases a with _ | ⟨x, _ | ⟨y, _ | ⟨z, _ | ⟨u, r⟩⟩⟩⟩ <;> simp at h <;> try omega
    simp only [List.cons_append, leWords]
    rw [ih r (by omega)]

theorem leWords_drop (b : Bytes) (k : Nat) : (leWords b).drop (4 * k) = leWords (b.drop (4 * k)) := by
  by_cases h : 4 * k ≤ b.length
  · conv_lhs => rw [← List.take_append_drop (4 * k) b]
    have hl : (b.take (4 * k)).length = 4 * k := by simp [h]
    rw [leWords_append _ _ k hl, List.drop_append_of_le_length (by rw [leWords_length, hl]; omega)]
    rw [List.drop_eq_nil_of_le (by rw [leWords_length, hl]; omega)]; rfl
  · rw [List.drop_eq_nil_of_le (as := b) (by omega), List.drop_eq_nil_of_le (by rw [leWords_length]; omega)]; rfl

theorem leWords_take (b : Bytes) (k : Nat) : (leWords b).take (4 * k) = leWords (b.take (4 * k)) := by
  by_cases h : 4 * k ≤ b.length
  · conv_lhs => rw [← List.take_append_drop (4 * k) b]
    have hl : (b.take (4 * k)).length = 4 * k := by simp [h]
    rw [leWords_append _ _ k hl, List.take_append_of_le_length (by rw [leWords_length, hl]; omega)]
    rw [List.take_of_length_le (by rw [leWords_length, hl]; omega)]
  · rw [List.take_of_length_le (l := b) (by omega), List.take_of_length_le (by rw [leWords_length]; omega)]

theorem leWords_four (b : Bytes) (h : b.length = 4) : leWords b = b.reverse := by
  rcases b with _ | ⟨x, _ | ⟨y, _ | ⟨z, _ | ⟨u, _ | ⟨v, r⟩⟩⟩⟩⟩ <;> simp at h
  rfl

theorem wordAt_le (b : Bytes) (hb : b.length = 64) (x : Nat) (hx : x < 16) :
    wordAt 32 (leWords b) (x * 4) 4 = Std.wordLE 4 b x := by
  rw [wordAt, Std.wordLE, toint256_small _ (by simp), Nat.mul_comm x 4, leWords_drop]
  have := leWords_take (b.drop (4 * x)) 1
  rw [show 4 * 1 = 4 from rfl] at this
  rw [this, leWords_four]
  simp; omega

theorem words_be (b : Bytes) : ((List.range 16).map fun x => wordAt 32 b (x * 4) 4) =
    (List.range 16).map (Std.wordBE 4 b) :=
  List.map_congr_left fun x _ => wordAt_be 4 (by norm_num) b x

theorem words_be8 (b : Bytes) : ((List.range 16).map fun x => wordAt 64 b (x * 8) 8) =
    (List.range 16).map (Std.wordBE 8 b) :=
  List.map_congr_left fun x _ => wordAt_be 8 (by norm_num) b x

theorem words_le (b : Bytes) (hb : b.length = 64) : ((List.range 16).map fun x => wordAt 32 (leWords b) (x * 4) 4) =
    (List.range 16).map (Std.wordLE 4 b) :=
  List.map_congr_left fun x hx => wordAt_le b hb x (List.mem_range.mp hx)

/-! ### SHA-1 -/

def Words5.tuple (s : Words5) : Std.State5 := (s.h0, s.h1, s.h2, s.h3, s.h4)

theorem sha1_skey (b : Bytes) : expandWords sha1Expand 64 ((List.range 16).map fun x => wordAt 32 b (x * 4) 4) =
    (List.range 80).map (Std.sha1W b) := by
  have h16 : (List.range 16).map (Std.wordBE 4 b) = (List.range 16).map (Std.sha1W b) := by
    apply List.map_congr_left
    intro x hx
    rw [Std.sha1W, dif_pos (List.mem_range.mp hx)]
  rw [words_be, h16]
  exact expandWords_eq sha1Expand (Std.sha1W b) (fun k hk => by
    rw [sha1Expand, back_map _ _ _ (by norm_num) (by omega), back_map _ _ _ (by norm_num) (by omega),
      back_map _ _ _ (by norm_num) (by omega), back_map _ _ _ (by norm_num) (by omega),
      rol_eq (by norm_num) _ _ (by norm_num) (by norm_num)]
    conv_rhs => rw [Std.sha1W, dif_neg (by omega)]) 64 16 (by norm_num)

theorem sha1_rounds (b : Bytes) (st : Words5) (n : Nat) (hn : n ≤ 80) :
    ((List.range n).foldl (sha1Round ((List.range 80).map (Std.sha1W b))) st).tuple = Std.sha1Rounds b st.tuple n := by
  induction n with
  | zero => rfl
  | succ n ih =>
    rw [List.range_succ (n := n), List.foldl_append, List.foldl_cons, List.foldl_nil, Std.sha1Rounds, ← ih (by omega)]
    generalize (List.range n).foldl (sha1Round ((List.range 80).map (Std.sha1W b))) st = r
    simp only [sha1Round, Words5.tuple, getD_map_range _ _ _ _ (show n < 80 by omega),
      rol_eq (w := 32) (by norm_num) _ _ (show 0 < 5 by norm_num) (by norm_num),
      rol_eq (w := 32) (by norm_num) _ _ (show 0 < 30 by norm_num) (by norm_num), ch_or, maj_or]
    simp only [Std.sha1f, Std.sha1K, Nat.lt_succ_iff.symm]
    simp only [Nat.succ_eq_add_one]
    norm_num
    split_ifs <;> rfl

theorem sha1Compress_eq (b : Bytes) (st : Words5) : (sha1Compress b st).tuple = Std.sha1Compress st.tuple b := by
  have h := sha1_rounds b st 80 le_rfl
  simp only [sha1Compress, sha1_skey, Std.sha1Compress, ← h]
  simp only [Words5.tuple, BitVec.add_comm]

/-! ### SHA-2 -/

def Words8.st {w : Nat} (s : Words8 w) : Std.State8 w := ⟨s.h0, s.h1, s.h2, s.h3, s.h4, s.h5, s.h6, s.h7⟩

theorem sha2_skey (p : Std.Sha2Params) (s0 s1 : BitVec (8 * p.octets) → BitVec (8 * p.octets))
    (h0 : ∀ x, s0 x = Std.smallSigma p.sig0 x) (h1 : ∀ x, s1 x = Std.smallSigma p.sig1 x) (b : Bytes) (n : Nat) :
    expandWords (sha2Expand s0 s1) n ((List.range 16).map (Std.wordBE p.octets b)) =
      (List.range (16 + n)).map (Std.sha2W p b) := by
  have h16 : (List.range 16).map (Std.wordBE p.octets b) = (List.range 16).map (Std.sha2W p b) := by
    apply List.map_congr_left
    intro x hx
    rw [Std.sha2W, dif_pos (List.mem_range.mp hx)]
  rw [h16]
  exact expandWords_eq _ (Std.sha2W p b) (fun k hk => by
    rw [sha2Expand, back_map _ _ _ (by norm_num) (by omega), back_map _ _ _ (by norm_num) (by omega),
      back_map _ _ _ (by norm_num) (by omega), back_map _ _ _ (by norm_num) (by omega), h0, h1]
    conv_rhs => rw [Std.sha2W, dif_neg (by omega)]) n 16 (by norm_num)

theorem sha2_rounds (p : Std.Sha2Params) (hp : 8 * p.octets ≤ 64)
    (S0 S1 : BitVec (8 * p.octets) → BitVec (8 * p.octets)) (K : List (BitVec (8 * p.octets)))
    (h0 : ∀ x, S0 x = Std.bigSigma p.Sig0 x) (h1 : ∀ x, S1 x = Std.bigSigma p.Sig1 x)
    (hK : ∀ t < p.rounds, K.getD t 0 = Std.sha2K (8 * p.octets) t) (b : Bytes) (st : Words8 (8 * p.octets)) (n : Nat)
    (hn : n ≤ p.rounds) :
    ((List.range n).foldl (sha2Round S0 S1 K ((List.range p.rounds).map (Std.sha2W p b))) st).st =
      Std.sha2Rounds p b st.st n := by
  induction n with
  | zero => rfl
  | succ n ih =>
    rw [List.range_succ (n := n), List.foldl_append, List.foldl_cons, List.foldl_nil, Std.sha2Rounds, ← ih (by omega)]
    generalize (List.range n).foldl (sha2Round S0 S1 K ((List.range p.rounds).map (Std.sha2W p b))) st = r
    simp only [sha2Round, Words8.st, getD_map_range _ _ _ _ (show n < p.rounds by omega), h0, h1,
      sha2Ch_eq hp, sha2Maj_eq hp, hK n (by omega)]

theorem sha2_add {w : Nat} (s r : Words8 w) : (s.add r).st =
    ⟨r.st.a + s.st.a, r.st.b + s.st.b, r.st.c + s.st.c, r.st.d + s.st.d, r.st.e + s.st.e, r.st.f + s.st.f,
      r.st.g + s.st.g, r.st.h + s.st.h⟩ := by
  simp only [Words8.add, Words8.st, BitVec.add_comm]

theorem sha256Compress_eq (b : Bytes) (st : Words8 32) :
    (sha256Compress b st).st = Std.sha2Compress Std.p256 st.st b := by
  have hs := sha2_skey Std.p256 sha256s0 sha256s1
    (fun x => by simp only [sha256s0, Std.smallSigma, Std.p256, ror_eq (w := 32) (by norm_num) x 7 (by norm_num) (by norm_num), ror_eq (w := 32) (by norm_num) x 18 (by norm_num) (by norm_num)]; rfl)
    (fun x => by simp only [sha256s1, Std.smallSigma, Std.p256, ror_eq (w := 32) (by norm_num) x 17 (by norm_num) (by norm_num), ror_eq (w := 32) (by norm_num) x 19 (by norm_num) (by norm_num)]; rfl)
    b 48
  have hr := sha2_rounds Std.p256 (by decide) sha256S0 sha256S1 sha256K
    (fun x => by simp only [sha256S0, Std.bigSigma, Std.p256, ror_eq (w := 32) (by norm_num) x 2 (by norm_num) (by norm_num), ror_eq (w := 32) (by norm_num) x 13 (by norm_num) (by norm_num), ror_eq (w := 32) (by norm_num) x 22 (by norm_num) (by norm_num)]; rfl)
    (fun x => by simp only [sha256S1, Std.bigSigma, Std.p256, ror_eq (w := 32) (by norm_num) x 6 (by norm_num) (by norm_num), ror_eq (w := 32) (by norm_num) x 11 (by norm_num) (by norm_num), ror_eq (w := 32) (by norm_num) x 25 (by norm_num) (by norm_num)]; rfl)
    (fun t ht => sha256K_eq t ht) b st 64 le_rfl
  have e : sha256Compress b st =
      st.add ((List.range 64).foldl (sha2Round sha256S0 sha256S1 sha256K ((List.range 64).map (Std.sha2W Std.p256 b))) st) := by
    rw [sha256Compress, words_be]
    exact congrArg (fun k => st.add ((List.range 64).foldl (sha2Round sha256S0 sha256S1 sha256K k) st)) hs
  rw [e, sha2_add]
  exact congrArg (fun r : Std.State8 _ => (⟨r.a + st.st.a, r.b + st.st.b, r.c + st.st.c, r.d + st.st.d,
    r.e + st.st.e, r.f + st.st.f, r.g + st.st.g, r.h + st.st.h⟩ : Std.State8 _)) hr

theorem sha512Compress_eq (b : Bytes) (st : Words8 64) :
    (sha512Compress b st).st = Std.sha2Compress Std.p512 st.st b := by
  have hs := sha2_skey Std.p512 sha512s0 sha512s1
    (fun x => by simp only [sha512s0, Std.smallSigma, Std.p512, ror_eq (w := 64) (by norm_num) x 1 (by norm_num) (by norm_num), ror_eq (w := 64) (by norm_num) x 8 (by norm_num) (by norm_num)]; rfl)
    (fun x => by simp only [sha512s1, Std.smallSigma, Std.p512, ror_eq (w := 64) (by norm_num) x 19 (by norm_num) (by norm_num), ror_eq (w := 64) (by norm_num) x 61 (by norm_num) (by norm_num)]; rfl)
    b 64
  have hr := sha2_rounds Std.p512 (by decide) sha512S0 sha512S1 sha512K
    (fun x => by simp only [sha512S0, Std.bigSigma, Std.p512, ror_eq (w := 64) (by norm_num) x 28 (by norm_num) (by norm_num), ror_eq (w := 64) (by norm_num) x 34 (by norm_num) (by norm_num), ror_eq (w := 64) (by norm_num) x 39 (by norm_num) (by norm_num)]; rfl)
    (fun x => by simp only [sha512S1, Std.bigSigma, Std.p512, ror_eq (w := 64) (by norm_num) x 14 (by norm_num) (by norm_num), ror_eq (w := 64) (by norm_num) x 18 (by norm_num) (by norm_num), ror_eq (w := 64) (by norm_num) x 41 (by norm_num) (by norm_num)]; rfl)
    (fun t ht => sha512K_eq t ht) b st 80 le_rfl
  have e : sha512Compress b st =
      st.add ((List.range 80).foldl (sha2Round sha512S0 sha512S1 sha512K ((List.range 80).map (Std.sha2W Std.p512 b))) st) := by
    rw [sha512Compress, words_be8]
    exact congrArg (fun k => st.add ((List.range 80).foldl (sha2Round sha512S0 sha512S1 sha512K k) st)) hs
  rw [e, sha2_add]
  exact congrArg (fun r : Std.State8 _ => (⟨r.a + st.st.a, r.b + st.st.b, r.c + st.st.c, r.d + st.st.d,
    r.e + st.st.e, r.f + st.st.f, r.g + st.st.g, r.h + st.st.h⟩ : Std.State8 _)) hr

/-! ### MD5 -/

def Words4.tuple (s : Words4) : Std.State4 := (s.h0, s.h1, s.h2, s.h3)

theorem md5_g (t : Nat) (ht : t < 64) : (if t < 16 then t else if t < 32 then (5 * t + 1) % 16
    else if t < 48 then (3 * t + 5) % 16 else (7 * t) % 16) = Std.md5k (t / 16) (t % 16) ∧
    Std.md5k (t / 16) (t % 16) < 16 := by
  have h : ∀ t ∈ List.range 64, (if t < 16 then t else if t < 32 then (5 * t + 1) % 16
    else if t < 48 then (3 * t + 5) % 16 else (7 * t) % 16) = Std.md5k (t / 16) (t % 16) ∧
    Std.md5k (t / 16) (t % 16) < 16 := by decide +kernel
  exact h t (List.mem_range.mpr ht)

theorem md5_f (t : Nat) (ht : t < 64) (b c d : BitVec 32) : (if t < 16 then (b &&& c) ||| (~~~b &&& d)
    else if t < 32 then (d &&& b) ||| (~~~d &&& c)
    else if t < 48 then b ^^^ c ^^^ d
    else c ^^^ (b ||| ~~~d)) = Std.md5f (t / 16) b c d := by
  have h4 : t / 16 < 4 := by omega
  by_cases h1 : t < 16
  · rw [if_pos h1, show t / 16 = 0 by omega]; rfl
  by_cases h2 : t < 32
  · rw [if_neg h1, if_pos h2, show t / 16 = 1 by omega, Std.md5f, BitVec.and_comm d b, BitVec.and_comm _ c]
  by_cases h3 : t < 48
  · rw [if_neg h1, if_neg h2, if_pos h3, show t / 16 = 2 by omega]; rfl
  · rw [if_neg h1, if_neg h2, if_neg h3, show t / 16 = 3 by omega]; rfl

theorem md5_steps (b : Bytes) (st : Words4) (n : Nat) (hn : n ≤ 64) :
    ((List.range n).foldl (md5Round ((List.range 16).map (Std.wordLE 4 b))) st).tuple = Std.md5Steps b st.tuple n := by
  induction n with
  | zero => rfl
  | succ n ih =>
    rw [List.range_succ (n := n), List.foldl_append, List.foldl_cons, List.foldl_nil, Std.md5Steps, ← ih (by omega)]
    generalize (List.range n).foldl (md5Round ((List.range 16).map (Std.wordLE 4 b))) st = r
    obtain ⟨hR, hR0, hR1⟩ := md5R_eq n (by omega)
    obtain ⟨hg, hg16⟩ := md5_g n (by omega)
    rw [hR] at hR0 hR1
    simp only [md5Round, Words4.tuple, md5_f n (by omega), hg, rol_eq (w := 32) (by norm_num) _ _ hR0 hR1, hR,
      getD_map_range _ _ _ _ hg16, md5K_eq n (by omega)]
    rw [BitVec.add_assoc (_ + _) (Std.md5T (n + 1)), BitVec.add_comm (Std.md5T (n + 1)), ← BitVec.add_assoc]

theorem md5Compress_eq (b : Bytes) (hb : b.length = 64) (st : Words4) :
    (md5Compress (leWords b) st).tuple = Std.md5Compress st.tuple b := by
  have h := md5_steps b st 64 le_rfl
  simp only [md5Compress, words_le b hb, Std.md5Compress, ← h]
  simp only [Words4.tuple, BitVec.add_comm]

/-! ### RIPEMD-160 -/

theorem ripemdF_eq (t : Nat) (x y z : BitVec 32) : ripemdF x y z t = Std.rmdf (t / 16) x y z := by
  rw [ripemdF]
  by_cases h1 : t < 16
  · rw [if_pos h1, show t / 16 = 0 by omega]; rfl
  by_cases h2 : t < 32
  · rw [if_neg h1, if_pos h2, show t / 16 = 1 by omega]; rfl
  by_cases h3 : t < 48
  · rw [if_neg h1, if_neg h2, if_pos h3, show t / 16 = 2 by omega]; rfl
  by_cases h4 : t < 64
  · rw [if_neg h1, if_neg h2, if_neg h3, if_pos h4, show t / 16 = 3 by omega]; rfl
  · rw [if_neg h1, if_neg h2, if_neg h3, if_neg h4]
    obtain ⟨k, hk⟩ : ∃ k, t / 16 = k + 4 := ⟨t / 16 - 4, by omega⟩
    rw [hk]; rfl

theorem rmdLeftWord_lt (t : Nat) (ht : t < 80) : Std.rmdLeftWord (t / 16) (t % 16) < 16 ∧
    Std.rmdRightWord (t / 16) (t % 16) < 16 := by
  have h : ∀ t ∈ List.range 80, Std.rmdLeftWord (t / 16) (t % 16) < 16 ∧
    Std.rmdRightWord (t / 16) (t % 16) < 16 := by decide +kernel
  exact h t (List.mem_range.mpr ht)

theorem ripemdHalf_eq (b : Bytes) (s : Words5) (f r : Nat) (k : BitVec 32) (sh : Nat) (hr : r < 16) (h0 : 0 < sh)
    (h1 : sh < 32) :
    (ripemdHalf ((List.range 16).map (Std.wordLE 4 b)) s f r k sh).tuple =
      Std.rmdStep (Std.rmdf (f / 16)) (Std.wordLE 4 b r) k sh s.tuple := by
  have hm : ∀ x : BitVec 32, x &&& 0xffffffff = x := fun x => by
    have : (0xffffffff : BitVec 32) = BitVec.allOnes 32 := by decide
    rw [this, BitVec.and_allOnes]
  simp only [ripemdHalf, Words5.tuple, Std.rmdStep, hm, ripemdF_eq, getD_map_range _ _ _ _ hr,
    rol_eq (w := 32) (by norm_num) _ _ h0 h1, rol_eq (w := 32) (by norm_num) _ _ (show 0 < 10 by norm_num) (by norm_num)]

theorem ripemd_rounds (b : Bytes) (st : Words5) (n : Nat) (hn : n ≤ 80) :
    ((List.range n).foldl (ripemdRound ((List.range 16).map (Std.wordLE 4 b))) (st, st)).1.tuple =
        Std.rmdLeft b st.tuple n ∧
      ((List.range n).foldl (ripemdRound ((List.range 16).map (Std.wordLE 4 b))) (st, st)).2.tuple =
        Std.rmdRight b st.tuple n := by
  induction n with
  | zero => exact ⟨rfl, rfl⟩
  | succ n ih =>
    rw [List.range_succ (n := n), List.foldl_append, List.foldl_cons, List.foldl_nil, Std.rmdLeft, Std.rmdRight,
      ← (ih (by omega)).1, ← (ih (by omega)).2]
    generalize (List.range n).foldl (ripemdRound ((List.range 16).map (Std.wordLE 4 b))) (st, st) = r
    obtain ⟨hs, hs0, hs1⟩ := ripemds_eq n (by omega)
    obtain ⟨hS, hS0, hS1⟩ := ripemdS_eq n (by omega)
    obtain ⟨hl, hr⟩ := rmdLeftWord_lt n (by omega)
    have e79 : (79 - n) / 16 = 4 - n / 16 := by omega
    simp only [ripemdRound]
    rw [ripemdr_eq n (by omega), ripemdR_eq n (by omega), ripemdHalf_eq _ _ _ _ _ _ hl hs0 hs1,
      ripemdHalf_eq _ _ _ _ _ _ hr hS0 hS1, hs, hS, ripemdk_eq n (by omega), ripemdK_eq n (by omega), e79]
    exact ⟨rfl, rfl⟩

theorem ripemdCompress_eq (b : Bytes) (hb : b.length = 64) (st : Words5) :
    (ripemdCompress (leWords b) st).tuple = Std.rmdCompress st.tuple b := by
  have h := ripemd_rounds b st 80 le_rfl
  simp only [ripemdCompress, words_le b hb, Std.rmdCompress, Words5.tuple] at h ⊢
  rw [← h.1, ← h.2]

end OpenPGP
