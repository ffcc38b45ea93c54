import Verif.Spec.Compress

/-! # The loops around the compression libraries -/
namespace OpenPGP

variable {σ : Type} {Form : Bytes → Bytes → Prop} {lib : Lib} {c : Coder σ}

theorem Lib.chunk_pos (lib : Lib) : 0 < lib.chunk := by cases lib <;> decide

theorem Lib.chunk_lt (lib : Lib) : lib.chunk < 2 ^ 32 := by cases lib <;> decide

@[simp] theorem Ran.val_bind {α β : Type} (a : α) (f : α → Ran β) : (Ran.val a).bind f = f a := rfl
@[simp] theorem Ran.abort_bind {α β : Type} (f : α → Ran β) : Ran.abort.bind f = .abort := rfl
@[simp] theorem Ran.ub_bind {α β : Type} (f : α → Ran β) : Ran.ub.bind f = .ub := rfl
@[simp] theorem Ran.diverge_bind {α β : Type} (f : α → Ran β) : Ran.diverge.bind f = .diverge := rfl

theorem Ran.assert_true {nd b : Bool} (h : nd = true ∨ b = true) : Ran.assert nd b = .val () := by
  rcases h with rfl | rfl <;> simp [Ran.assert]

theorem Ran.assert_false : Ran.assert false false = .abort := rfl

/-- The step of the inner loop of the compressors, when the assertion holds. -/
theorem compressInner_step (nd : Bool) (finish : Bool) (fuel : Nat) (s : σ) (input dst : Bytes)
    (hm : nd = true ∨ (c.call s finish input lib.chunk).rc ≠ lib.misuse)
    (hl : (c.call s finish input lib.chunk).out.length ≤ lib.chunk) :
    compressInner nd lib c finish (fuel + 1) s input dst =
      if (c.call s finish input lib.chunk).out.length = lib.chunk then
        compressInner nd lib c finish fuel (c.call s finish input lib.chunk).next (input.drop (c.call s finish input lib.chunk).used)
          (dst ++ (c.call s finish input lib.chunk).out)
      else .val ((c.call s finish input lib.chunk).rc, input.drop (c.call s finish input lib.chunk).used,
        (c.call s finish input lib.chunk).next, dst ++ (c.call s finish input lib.chunk).out) := by
  rw [compressInner, Ran.assert_true (by simpa using hm)]
  by_cases h : (c.call s finish input lib.chunk).out.length = lib.chunk
  · simp [h]
  · rw [if_neg h]
    simp only [Ran.bind]
    rw [if_neg (by omega)]

/-- While the stream runs, the inner loop ends with all input used. -/
theorem compressInner_run (hc : Compressor lib Form c) {start : σ} (hi : c.init = some start) :
    ∀ (k : Nat) (s : σ) (x y input : Bytes), c.Compressing start s x y .running →
      hc.bounded.choose (x ++ input).length - y.length < k →
      ∃ rc s' y', c.Compressing start s' (x ++ input) y' .running ∧
        ∀ nd fuel, k ≤ fuel → compressInner nd lib c false fuel s input y = .val (rc, [], s', y')
  | 0, _, _, _, _, _, hk => by omega
  | k + 1, s, x, y, input, hr, hk => by
    obtain ⟨hmono, hb⟩ := hc.bounded.choose_spec
    have hp := lib.chunk_pos
    obtain ⟨h1, h2⟩ := hc.sizes hi hr false input lib.chunk hp (Or.inl rfl)
    have h3 := hc.legal hi hr false input lib.chunk hp (Or.inl rfl)
    have hr' := hr.run input hp
    generalize hcall : c.call s false input lib.chunk = r at *
    have hstep := fun nd fuel => compressInner_step (c := c) (lib := lib) nd false fuel s input y (Or.inr (by rw [hcall]; exact h3)) (by rw [hcall]; exact h2)
    simp only [hcall] at hstep
    by_cases hfull : r.out.length = lib.chunk
    · have hxx : x ++ input.take r.used ++ input.drop r.used = x ++ input := by simp
      have hbd := hb hi hr'
      have hle : hc.bounded.choose (x ++ input.take r.used).length ≤ hc.bounded.choose (x ++ input).length :=
        hmono (by simp)
      obtain ⟨rc, s', y', g1, g2⟩ := compressInner_run hc hi k r.next (x ++ input.take r.used) (y ++ r.out) (input.drop r.used) hr'
        (by rw [hxx]; simp only [List.length_append] at hbd ⊢ hk hle; omega)
      rw [hxx] at g1
      refine ⟨rc, s', y', g1, ?_⟩
      intro nd fuel hf
      obtain ⟨fuel, rfl⟩ : ∃ f, fuel = f + 1 := ⟨fuel - 1, by omega⟩
      rw [hstep, if_pos hfull]
      exact g2 nd fuel (by omega)
    · have hu : r.used = input.length := by
        have := hc.busy hi hr false input lib.chunk hp (Or.inl rfl)
        rw [hcall] at this
        exact this (by omega)
      rw [hu, List.take_length] at hr'
      refine ⟨r.rc, r.next, y ++ r.out, hr', ?_⟩
      intro nd fuel hf
      obtain ⟨fuel, rfl⟩ : ∃ f, fuel = f + 1 := ⟨fuel - 1, by omega⟩
      rw [hstep, if_neg hfull, hu, List.drop_length]

/-- The inner loop only appends. -/
theorem compressInner_prefix {nd finish : Bool} : ∀ {fuel : Nat} {s : σ} {input dst : Bytes} {r : Rc × Bytes × σ × Bytes},
    compressInner nd lib c finish fuel s input dst = .val r → dst <+: r.2.2.2
  | 0, _, _, _, _, h => by simp [compressInner] at h
  | fuel + 1, s, input, dst, r, h => by
    rw [compressInner] at h
    cases ha : Ran.assert nd ((c.call s finish input lib.chunk).rc ≠ lib.misuse) with
    | val u =>
      simp only [ha, Ran.bind] at h
      split at h
      · exact (List.prefix_append _ _).trans (compressInner_prefix h)
      · rw [Ran.val.injEq] at h
        subst h
        exact List.prefix_append _ _
    | abort => simp only [ha, Ran.bind, reduceCtorEq] at h
    | ub => simp only [ha, Ran.bind, reduceCtorEq] at h
    | diverge => simp only [ha, Ran.bind, reduceCtorEq] at h

/-- The last inner loop: a complete stream is put out. `full` tells whether the last octets filled the buffer: then the library is called
once more. -/
theorem compressInner_finish (hc : Compressor lib Form c) {start : σ} (hi : c.init = some start) :
    ∀ (k : Nat) (s : σ) (x y input : Bytes) (ph : Phase), c.Compressing start s x y ph → (ph = .running ∨ ph = .finishing input) →
      hc.bounded.choose (x ++ input).length - y.length < k →
      ∃ full s' z, Form (x ++ input) z ∧ y <+: z ∧
        (lib = .bzip2 → full = (decide (y.length < z.length) && decide (lib.chunk ∣ z.length - y.length))) ∧
        (lib = .bzip2 → ph = .finishing input → z ≠ y) ∧
        ∀ nd fuel, k ≤ fuel → compressInner nd lib c true (fuel + 1) s input y =
          if full then (Ran.assert nd (lib.again ≠ lib.misuse)).bind fun _ => .val (lib.again, [], s', z)
          else .val (.streamEnd, [], s', z)
  | 0, _, _, _, _, _, _, _, hk => by omega
  | k + 1, s, x, y, input, ph, hr, hph, hk => by
    obtain ⟨hmono, hb⟩ := hc.bounded.choose_spec
    have hp := lib.chunk_pos
    have hph' : ph = .running ∨ true = true ∧ ph = .finishing input := hph.imp_right fun h => ⟨rfl, h⟩
    obtain ⟨h1, h2⟩ := hc.sizes hi hr true input lib.chunk hp hph'
    have h3 := hc.legal hi hr true input lib.chunk hp hph'
    have h4 := hc.complete hi hr true input lib.chunk hp hph'
    have h5 := hc.finishes hi hr input lib.chunk hp hph
    have hr' := hr.finish input hph hp
    have h6 : lib = .bzip2 → ph = .finishing input → (c.call s true input lib.chunk).out ≠ [] := by
      rintro hl rfl
      exact hc.eager hl hi input hr lib.chunk hp
    generalize hcall : c.call s true input lib.chunk = r at *
    have hstep := fun nd fuel => compressInner_step (c := c) (lib := lib) nd true fuel s input y (Or.inr (by rw [hcall]; exact h3)) (by rw [hcall]; exact h2)
    simp only [hcall] at hstep
    by_cases hend : r.rc = .streamEnd
    · obtain ⟨-, hu, hform⟩ := h4 hend
      rw [if_pos hend, hu, List.take_length] at hr'
      by_cases hfull : r.out.length = lib.chunk
      · obtain ⟨a1, a2, a3⟩ := hc.after hi hr' lib.chunk hp
        refine ⟨true, (c.call r.next true [] lib.chunk).next, y ++ r.out, hform, List.prefix_append _ _, ?_, ?_, ?_⟩
        · simp [hfull, hp]
        · intro hl hf he
          exact h6 hl hf (by simpa using he)
        · intro nd fuel hf
          obtain ⟨fuel, rfl⟩ : ∃ f, fuel = f + 1 := ⟨fuel - 1, by omega⟩
          rw [hstep, if_pos hfull, hu, List.drop_length, if_pos rfl, compressInner, a1, a2, a3]
          simp only [List.length_nil, List.append_nil, List.drop_nil, Nat.sub_zero]
          rw [if_neg (by omega)]
      · refine ⟨false, r.next, y ++ r.out, hform, List.prefix_append _ _, ?_, ?_, ?_⟩
        · intro _
          symm
          rw [Bool.and_eq_false_iff]
          simp only [decide_eq_false_iff_not, List.length_append]
          by_cases h0 : r.out.length = 0
          · left; omega
          · right
            intro hd
            exact hfull (Nat.le_antisymm h2 (Nat.le_of_dvd (by omega) (by simpa using hd)))
        · intro hl hf he
          exact h6 hl hf (by simpa using he)
        · intro nd fuel hf
          obtain ⟨fuel, rfl⟩ : ∃ f, fuel = f + 1 := ⟨fuel - 1, by omega⟩
          rw [hstep, if_neg hfull, hu, List.drop_length, hend]
          simp
    · rw [if_neg hend] at hr'
      have hfull : r.out.length = lib.chunk := by
        by_contra hne
        exact hend (h5 (by omega))
      have hxx : x ++ input.take r.used ++ input.drop r.used = x ++ input := by simp
      have hbd := hb hi hr'
      have hle : hc.bounded.choose (x ++ input.take r.used).length ≤ hc.bounded.choose (x ++ input).length :=
        hmono (by simp)
      obtain ⟨full, s', z, g1, g2, g3, g5, g4⟩ := compressInner_finish hc hi k r.next (x ++ input.take r.used) (y ++ r.out) (input.drop r.used) _ hr'
        (Or.inr rfl) (by rw [hxx]; simp only [List.length_append] at hbd ⊢ hk hle; omega)
      rw [hxx] at g1
      obtain ⟨t, rfl⟩ := g2
      refine ⟨full, s', y ++ r.out ++ t, g1, by rw [List.append_assoc]; exact List.prefix_append _ _, ?_, ?_, ?_⟩
      · intro hl
        have ht : t.length ≠ 0 := by
          intro h0
          exact g5 hl rfl (by simp [List.length_eq_zero_iff.mp h0])
        rw [g3 hl]
        simp only [List.length_append]
        congr 1
        · simp; omega
        · have : lib.chunk ∣ y.length + r.out.length + t.length - y.length ↔ lib.chunk ∣ y.length + r.out.length + t.length - (y.length + r.out.length) := by
            rw [hfull]
            rw [show y.length + lib.chunk + t.length - y.length = t.length + lib.chunk by omega,
              show y.length + lib.chunk + t.length - (y.length + lib.chunk) = t.length by omega]
            simp
          simp only [this]
      · intro hl hf he
        have := congrArg List.length he
        simp only [List.length_append] at this
        omega
      · intro nd fuel hf
        obtain ⟨fuel, rfl⟩ : ∃ f, fuel = f + 1 := ⟨fuel - 1, by omega⟩
        rw [hstep, if_pos hfull]
        exact g4 nd fuel (by omega)

theorem takeIn_more {chunk len index : Nat} (h : index + chunk < len) (hl : len ≤ 2 ^ 32) : takeIn chunk len index = chunk := by
  rw [takeIn, if_pos]
  rw [Nat.mod_eq_of_lt (by omega)]; exact h

theorem takeIn_last {chunk len index : Nat} (h : len ≤ index + chunk) (hi : index ≤ len) (hw : index + chunk < 2 ^ 32) :
    takeIn chunk len index = len - index := by
  rw [takeIn, if_neg]
  · rw [show len + 2 ^ 32 - index = len - index + 2 ^ 32 by omega, Nat.add_mod_right, Nat.mod_eq_of_lt (by omega)]
  · rw [Nat.mod_eq_of_lt hw]; omega

theorem handIn_in {src : Bytes} {index n : Nat} (h : index + n ≤ src.length) : handIn src index n = .val ((src.drop index).take n) := by
  rw [handIn, if_neg (by omega), List.drop_append_of_le_length (by omega), List.take_append_of_le_length (by simp; omega)]

theorem compressOuter_step (nd : Bool) (src : Bytes) (len fuel : Nat) (s : σ) (index : Nat) (dst : Bytes) {n : Nat} {input : Bytes}
    (hn : takeIn lib.chunk len index = n) (hin : handIn src index n = .val input) :
    compressOuter nd lib c src len (fuel + 1) s index dst =
      (compressInner nd lib c ((index + n) % 2 ^ 32 == len) fuel s input dst).bind fun r =>
        (Ran.assert nd (r.2.1 = [])).bind fun _ =>
          if ((index + n) % 2 ^ 32 == len) = true then (Ran.assert nd (r.1 = .streamEnd)).bind fun _ => .val r.2.2.2
          else compressOuter nd lib c src len fuel r.2.2.1 ((index + n) % 2 ^ 32) r.2.2.2 := by
  rw [compressOuter]
  simp only [hn, hin, Ran.bind]

/-- The outer loop: what the first `len` octets compress to. `full` says that the last call filled the buffer. -/
theorem compressOuter_spec (hc : Compressor lib Form c) {start : σ} (hi : c.init = some start) (src : Bytes) (len : Nat) (hls : len ≤ src.length)
    (hlen : len + lib.chunk ≤ 2 ^ 32) :
    ∀ (m : Nat) (s : σ) (index : Nat) (dst : Bytes), len - index < m → (index < len ∨ index = 0 ∧ len = 0) →
      c.Compressing start s (src.take index) dst .running →
      ∃ full z, Form (src.take len) z ∧ dst <+: z ∧
        (lib = .bzip2 → len ≤ index + lib.chunk → full = (decide (dst.length < z.length) && decide (lib.chunk ∣ z.length - dst.length))) ∧
        ∀ nd, Ran.To (fun fuel => compressOuter nd lib c src len fuel s index dst)
          (if full && (lib == .bzip2) && !nd then .abort else .val z)
  | 0, _, _, _, hm, _, _ => by omega
  | m + 1, s, index, dst, hm, hidx, hr => by
    have hp := lib.chunk_pos
    have hp2 := lib.chunk_lt
    by_cases hmore : index + lib.chunk < len
    · have hn := takeIn_more hmore (by omega : len ≤ 2 ^ 32)
      have hin := handIn_in (src := src) (index := index) (n := lib.chunk) (by omega)
      have hx : src.take index ++ (src.drop index).take lib.chunk = src.take (index + lib.chunk) := List.take_add.symm
      obtain ⟨rc, s', y', g1, g2⟩ := compressInner_run hc hi _ s (src.take index) dst ((src.drop index).take lib.chunk) hr (Nat.lt_succ_self _)
      rw [hx] at g1
      obtain ⟨full, z, e1, e2, -, e4⟩ := compressOuter_spec hc hi src len hls hlen m s' (index + lib.chunk) y' (by omega) (Or.inl hmore) g1
      have hfin : ((index + lib.chunk) % 2 ^ 32 == len) = false := by
        rw [Nat.mod_eq_of_lt (by omega)]; simp; omega
      have hmod : (index + lib.chunk) % 2 ^ 32 = index + lib.chunk := Nat.mod_eq_of_lt (by omega)
      refine ⟨full, z, e1, ?_, fun _ h => absurd h (by omega), ?_⟩
      · have := compressInner_prefix (g2 false _ (Nat.le_refl _))
        exact this.trans e2
      · intro nd
        obtain ⟨n1, hn1⟩ := e4 nd
        refine ⟨n1 + (hc.bounded.choose (src.take index ++ (src.drop index).take lib.chunk).length - dst.length) + 2, ?_⟩
        intro fuel hf
        obtain ⟨fuel, rfl⟩ : ∃ f, fuel = f + 1 := ⟨fuel - 1, by omega⟩
        show compressOuter nd lib c src len (fuel + 1) s index dst = _
        rw [compressOuter_step nd src len fuel s index dst hn hin, hfin, g2 nd fuel (by omega)]
        simp only [Ran.bind, Bool.false_eq_true, if_false]
        rw [Ran.assert_true (by simp), hmod]
        exact hn1 fuel (by omega)
    · have hlast : takeIn lib.chunk len index = len - index := takeIn_last (by omega) (by omega) (by omega)
      have hin := handIn_in (src := src) (index := index) (n := len - index) (by omega)
      have hx : src.take index ++ (src.drop index).take (len - index) = src.take len := by
        rw [← List.take_add]; congr 1; omega
      obtain ⟨full, s', z, e1, e2, e3, -, e4⟩ := compressInner_finish hc hi _ s (src.take index) dst ((src.drop index).take (len - index)) _ hr
        (Or.inl rfl) (Nat.lt_succ_self _)
      have hmod : (index + (len - index)) % 2 ^ 32 = len := by
        rw [show index + (len - index) = len by omega, Nat.mod_eq_of_lt (by omega)]
      refine ⟨full, z, by rw [← hx]; exact e1, e2, fun hl _ => e3 hl, ?_⟩
      intro nd
      refine ⟨(hc.bounded.choose (src.take index ++ (src.drop index).take (len - index)).length - dst.length) + 3, ?_⟩
      intro fuel hf
      obtain ⟨fuel, rfl⟩ : ∃ f, fuel = f + 2 := ⟨fuel - 2, by omega⟩
      show compressOuter nd lib c src len (fuel + 1 + 1) s index dst = _
      rw [compressOuter_step nd src len (fuel + 1) s index dst hlast hin, hmod, beq_self_eq_true, e4 nd fuel (by omega)]
      cases full
      · simp [Ran.assert]
      · cases hlib : lib <;> cases nd <;> simp [Ran.assert, Lib.again, Lib.misuse]

/-- Less than one buffer short of 4 GiB the bound on the last piece wraps around. -/
theorem compressOuter_wrap (hc : Compressor lib Form c) {start : σ} (hi : c.init = some start) (src : Bytes) (h1 : 2 ^ 32 < src.length + lib.chunk)
    (h2 : src.length + 1 < 2 ^ 32) (nd : Bool) :
    ∀ (m : Nat) (s : σ) (index : Nat) (dst : Bytes), 2 ^ 32 - index < m → index + lib.chunk ≤ 2 ^ 32 → lib.chunk ∣ index →
      c.Compressing start s (src.take index) dst .running →
      Ran.To (fun fuel => compressOuter nd lib c src src.length fuel s index dst) .ub
  | 0, _, _, _, hm, _, _, _ => by omega
  | m + 1, s, index, dst, hm, hidx, hdvd, hr => by
    have hp := lib.chunk_pos
    by_cases hlast : index + lib.chunk = 2 ^ 32
    · refine ⟨1, fun fuel hf => ?_⟩
      obtain ⟨fuel, rfl⟩ : ∃ f, fuel = f + 1 := ⟨fuel - 1, by omega⟩
      show compressOuter nd lib c src src.length (fuel + 1) s index dst = _
      have hn : takeIn lib.chunk src.length index = lib.chunk := by
        rw [takeIn, hlast, Nat.mod_self, if_pos (by have := lib.chunk_lt; omega)]
      have hin : handIn src index lib.chunk = .ub := by rw [handIn, if_pos (by omega)]
      rw [compressOuter]
      simp only [hn, hin, Ran.ub_bind]
    · have hd32 : lib.chunk ∣ 2 ^ 32 := by cases lib <;> decide
      have hnext : index + lib.chunk + lib.chunk ≤ 2 ^ 32 := by
        have := Nat.le_of_dvd (by omega) (Nat.dvd_sub hd32 (Nat.dvd_add hdvd (Nat.dvd_refl lib.chunk)))
        omega
      have hmore : index + lib.chunk < src.length := by omega
      have hn := takeIn_more hmore (by omega : src.length ≤ 2 ^ 32)
      have hin := handIn_in (src := src) (index := index) (n := lib.chunk) (by omega)
      have hx : src.take index ++ (src.drop index).take lib.chunk = src.take (index + lib.chunk) := List.take_add.symm
      obtain ⟨rc, s', y', g1, g2⟩ := compressInner_run hc hi _ s (src.take index) dst ((src.drop index).take lib.chunk) hr (Nat.lt_succ_self _)
      rw [hx] at g1
      obtain ⟨n1, hn1⟩ := compressOuter_wrap hc hi src h1 h2 nd m s' (index + lib.chunk) y' (by omega) hnext
        (Nat.dvd_add hdvd (Nat.dvd_refl _)) g1
      have hmod : (index + lib.chunk) % 2 ^ 32 = index + lib.chunk := Nat.mod_eq_of_lt (by omega)
      have hfin : ((index + lib.chunk) % 2 ^ 32 == src.length) = false := by
        rw [hmod]; simp; omega
      refine ⟨n1 + (hc.bounded.choose (src.take index ++ (src.drop index).take lib.chunk).length - dst.length) + 2, ?_⟩
      intro fuel hf
      obtain ⟨fuel, rfl⟩ : ∃ f, fuel = f + 1 := ⟨fuel - 1, by omega⟩
      show compressOuter nd lib c src src.length (fuel + 1) s index dst = _
      rw [compressOuter_step nd src src.length fuel s index dst hn hin, hfin, g2 nd fuel (by omega)]
      simp only [Ran.val_bind, Bool.false_eq_true, if_false]
      rw [Ran.assert_true (by simp), hmod]
      exact hn1 fuel (by omega)

/-! ### Decompressing -/

theorem Along.of_eq {a b c d : Bytes} (h : a = b) (h' : Along b c) (h2 : c = d) : Along a d := by subst h; subst h2; exact h'

theorem inflateInner_step (nd : Bool) (fuel : Nat) (s : σ) (input dst : Bytes) {r : Called σ} (hcall : c.call s false input Lib.zlib.chunk = r)
    (hm : nd = true ∨ r.rc ≠ .streamError) (hl : r.out.length ≤ Lib.zlib.chunk) :
    inflateInner nd c (fuel + 1) s input dst =
      if r.rc = .needDict ∨ r.rc = .dataError ∨ r.rc = .memError then .val (none, dst)
      else if r.out.length = Lib.zlib.chunk then inflateInner nd c fuel r.next (input.drop r.used) (dst ++ r.out)
      else .val (some (r.rc, r.next), dst ++ r.out) := by
  rw [inflateInner]
  simp only [hcall]
  rw [Ran.assert_true (by simpa using hm), Ran.val_bind]
  split
  · rfl
  · by_cases h : r.out.length = Lib.zlib.chunk
    · rw [if_pos (by omega), if_pos h]
    · rw [if_neg (by omega), if_neg h]

/-- What the inner loop of `zlib_decompress` comes to, on any input. -/
theorem inflateInner_spec (hc : Decompressor .zlib Form c) {start : σ} (hi : c.init = some start) :
    ∀ (k : Nat) (s : σ) (x y input : Bytes), c.Decompressing .zlib start s x y false →
      hc.bounded.choose (x ++ input).length - y.length < k →
      ∃ r y', (∀ nd fuel, k < fuel → inflateInner nd c fuel s input y = .val (r, y')) ∧
        match r with
        | none => ∀ d z, Form d z → ¬ Along (x ++ input) z
        | some (rc, s') =>
          if rc = .streamEnd then (∃ u ≤ input.length, Form y' (x ++ input.take u)) ∧ ∀ d z, Form d z → Along (x ++ input) z → y' = d
          else c.Decompressing .zlib start s' (x ++ input) y' false ∧ ∀ d z, Form d z → ¬ z <+: x ++ input
  | 0, _, _, _, _, _, hk => by omega
  | k + 1, s, x, y, input, hr, hk => by
    obtain ⟨hmono, hb⟩ := hc.bounded.choose_spec
    have hp : 0 < Lib.zlib.chunk := by decide
    obtain ⟨h1, h2⟩ := hc.sizes hi hr input _ hp
    have h3 := hc.legal hi hr input _ hp
    have h4 := hc.busy hi hr input _ hp
    have h5 := hc.sound hi hr input _ hp
    have h6 := hc.reads hi hr input _ hp
    have h7 := hc.ends hi hr input _ hp
    have hr' := hr.step input hp
    generalize hcall : c.call s false input Lib.zlib.chunk = r at *
    have hstep := fun nd fuel (h : nd = true ∨ r.rc ≠ .streamError) => inflateInner_step nd fuel s input y hcall h h2
    rcases h3 with h3 | h3
    · have hr' := hr' h3
      have hne : r.rc ≠ .streamError ∧ ¬ (r.rc = .needDict ∨ r.rc = .dataError ∨ r.rc = .memError) := by
        rcases h3 with h3 | h3 | h3 <;> rw [h3] <;> decide
      by_cases hend : r.rc = .streamEnd
      · rw [decide_eq_true hend] at hr'
        by_cases hfull : r.out.length = Lib.zlib.chunk
        · obtain ⟨a1, a2, a3⟩ := hc.after hi hr' (input.drop r.used) _ hp
          refine ⟨some (.streamEnd, (c.call r.next false (input.drop r.used) Lib.zlib.chunk).next), y ++ r.out, ?_, ?_⟩
          · intro nd fuel hf
            obtain ⟨fuel, rfl⟩ : ∃ f, fuel = f + 2 := ⟨fuel - 2, by omega⟩
            rw [hstep nd (fuel + 1) (Or.inr hne.1), if_neg hne.2, if_pos hfull, inflateInner_step nd fuel _ _ _ rfl (by rw [a1]; right; decide) (by rw [a2]; simp),
              if_neg (by rw [a1]; decide), if_neg (by rw [a2]; simp [Lib.chunk]), a1, a2, List.append_nil]
            rfl
          · simp only [if_true]
            exact ⟨⟨r.used, h1, h5 hend⟩, fun d z hf ha => ((h6 d z hf ha).2.2.2 hend).1⟩
        · refine ⟨some (r.rc, r.next), y ++ r.out, ?_, ?_⟩
          · intro nd fuel hf
            obtain ⟨fuel, rfl⟩ : ∃ f, fuel = f + 1 := ⟨fuel - 1, by omega⟩
            rw [hstep nd fuel (Or.inr hne.1), if_neg hne.2, if_neg hfull]
          · simp only [hend, if_true]
            exact ⟨⟨r.used, h1, h5 hend⟩, fun d z hf ha => ((h6 d z hf ha).2.2.2 hend).1⟩
      · rw [decide_eq_false hend] at hr'
        by_cases hfull : r.out.length = Lib.zlib.chunk
        · have hxx : x ++ input.take r.used ++ input.drop r.used = x ++ input := by simp
          have hbd := hb hi hr'
          have hle : hc.bounded.choose (x ++ input.take r.used).length ≤ hc.bounded.choose (x ++ input).length := hmono (by simp)
          obtain ⟨r', y', g1, g2⟩ := inflateInner_spec hc hi k r.next (x ++ input.take r.used) (y ++ r.out) (input.drop r.used) hr'
            (by rw [hxx]; simp only [List.length_append] at hbd ⊢ hk hle; have : Lib.zlib.chunk = 16384 := rfl; omega)
          refine ⟨r', y', ?_, ?_⟩
          · intro nd fuel hf
            obtain ⟨fuel, rfl⟩ : ∃ f, fuel = f + 1 := ⟨fuel - 1, by omega⟩
            rw [hstep nd fuel (Or.inr hne.1), if_neg hne.2, if_pos hfull]
            exact g1 nd fuel (by omega)
          · rw [hxx] at g2
            revert g2
            cases r' with
            | none => exact id
            | some p =>
              obtain ⟨rc, s'⟩ := p
              simp only
              split
              · rintro ⟨⟨u, hu, g2⟩, g3⟩
                refine ⟨⟨r.used + u, ?_, ?_⟩, g3⟩
                · simp only [List.length_drop] at hu; omega
                · rw [List.take_add, ← List.append_assoc]; exact g2
              · exact id
        · have hu : r.used = input.length := h4 h3 hend (by omega)
          rw [hu, List.take_length] at hr'
          refine ⟨some (r.rc, r.next), y ++ r.out, ?_, ?_⟩
          · intro nd fuel hf
            obtain ⟨fuel, rfl⟩ : ∃ f, fuel = f + 1 := ⟨fuel - 1, by omega⟩
            rw [hstep nd fuel (Or.inr hne.1), if_neg hne.2, if_neg hfull]
          · simp only [hend, if_false]
            exact ⟨hr', fun d z hf hz => hend (h7 d z hf hz (Or.inr (by omega)))⟩
    · refine ⟨none, y, ?_, ?_⟩
      · intro nd fuel hf
        obtain ⟨fuel, rfl⟩ : ∃ f, fuel = f + 1 := ⟨fuel - 1, by omega⟩
        rw [hstep nd fuel (Or.inr (by rcases h3 with h3 | h3 | h3 <;> rw [h3] <;> decide)), if_pos h3]
      · intro d z hf ha
        have := (h6 d z hf ha).1
        rcases this with h | h | h <;> rw [h] at h3 <;> exact absurd h3 (by decide)

/-- `zlib_decompress` on any input: it returns, with `Z_OK` only if the input begins with a complete stream, whose contents it returns; and
with `Z_OK` if it does. -/
theorem inflateOuter_spec (hc : Decompressor .zlib Form c) {start : σ} (hi : c.init = some start) (src : Bytes) (len : Nat) (hls : len ≤ src.length)
    (hlen : len + Lib.zlib.chunk < 2 ^ 32) :
    ∀ (m : Nat) (s : σ) (index : Nat) (dst : Bytes), len - index < m → index ≤ len →
      c.Decompressing .zlib start s (src.take index) dst false → (∀ d z, Form d z → ¬ z <+: src.take index) →
      ∃ good y, (∀ nd, Ran.To (fun fuel => inflateOuter nd c src len fuel s index dst) (.val (good, y))) ∧
        (good = true → ∃ u ≤ len, Form y (src.take u)) ∧ (∀ d z, Form d z → z <+: src.take len → good = true ∧ y = d)
  | 0, _, _, _, hm, _, _, _ => by omega
  | m + 1, s, index, dst, hm, hidx, hr, hno => by
    have hchunk : Lib.zlib.chunk = 16384 := rfl
    have key : ∀ n, takeIn Lib.zlib.chunk len index = n → index + n ≤ len → (n = 0 → index = len) →
      ∃ good y, (∀ nd, Ran.To (fun fuel => inflateOuter nd c src len fuel s index dst) (.val (good, y))) ∧
        (good = true → ∃ u ≤ len, Form y (src.take u)) ∧ (∀ d z, Form d z → z <+: src.take len → good = true ∧ y = d) := by
      intro n hn hin0 hz
      have hin := handIn_in (src := src) (index := index) (n := n) (by omega)
      have hstep : ∀ nd fuel, inflateOuter nd c src len (fuel + 1) s index dst =
          if n = 0 then .val (false, dst)
          else (inflateInner nd c fuel s ((src.drop index).take n) dst).bind fun r =>
            match r.1 with
            | none => .val (false, r.2)
            | some (rc, s) => if rc = .streamEnd then .val (true, r.2)
              else inflateOuter nd c src len fuel s (index + n) r.2 := by
        intro nd fuel
        rw [inflateOuter]
        simp only [hn, hin, Ran.val_bind]
        rw [Nat.mod_eq_of_lt (by omega)]
        rfl
      by_cases h0 : n = 0
      · refine ⟨false, dst, fun nd => ⟨1, fun fuel hf => ?_⟩, by simp, ?_⟩
        · obtain ⟨fuel, rfl⟩ : ∃ f, fuel = f + 1 := ⟨fuel - 1, by omega⟩
          show inflateOuter nd c src len (fuel + 1) s index dst = _
          rw [hstep, if_pos h0]
        · intro d z hf hz'
          rw [← hz h0] at hz'
          exact absurd hz' (hno d z hf)
      · have hx : src.take index ++ (src.drop index).take n = src.take (index + n) := List.take_add.symm
        obtain ⟨r, y', g1, g2⟩ := inflateInner_spec hc hi _ s (src.take index) dst ((src.drop index).take n) hr (Nat.lt_succ_self _)
        rw [hx] at g2
        have hpre : src.take (index + n) <+: src.take len := by
          rw [show index + n = min (index + n) len by omega, ← List.take_take]
          exact List.take_prefix _ _
        have halong : ∀ d z, Form d z → z <+: src.take len → Along (src.take (index + n)) z := fun d z _ hz' =>
          List.prefix_or_prefix_of_prefix hpre hz'
        cases r with
        | none =>
          refine ⟨false, y', fun nd => ⟨(hc.bounded.choose (src.take index ++ (src.drop index).take n).length - dst.length) + 3, fun fuel hf => ?_⟩, by simp, fun d z hf hz' => absurd (halong d z hf hz') (g2 d z hf)⟩
          · obtain ⟨fuel, rfl⟩ : ∃ f, fuel = f + 1 := ⟨fuel - 1, by omega⟩
            show inflateOuter nd c src len (fuel + 1) s index dst = _
            rw [hstep, if_neg h0, g1 nd fuel (by omega), Ran.val_bind]
        | some p =>
          obtain ⟨rc, s'⟩ := p
          simp only at g2
          by_cases hend : rc = .streamEnd
          · rw [if_pos hend] at g2
            obtain ⟨⟨u, hu, g2⟩, g3⟩ := g2
            refine ⟨true, y', fun nd => ⟨(hc.bounded.choose (src.take index ++ (src.drop index).take n).length - dst.length) + 3, fun fuel hf => ?_⟩, fun _ => ⟨index + u, ?_, ?_⟩, fun d z hf hz' => ⟨rfl, g3 d z hf (halong d z hf hz')⟩⟩
            · obtain ⟨fuel, rfl⟩ : ∃ f, fuel = f + 1 := ⟨fuel - 1, by omega⟩
              show inflateOuter nd c src len (fuel + 1) s index dst = _
              rw [hstep, if_neg h0, g1 nd fuel (by omega), Ran.val_bind]
              simp only [hend, if_true]
            · simp only [List.length_take, List.length_drop] at hu; omega
            · rw [List.take_add]
              have : ((src.drop index).take n).take u = (src.drop index).take u := by
                rw [List.take_take]; congr 1
                simp only [List.length_take, List.length_drop] at hu; omega
              rw [← this]; exact g2
          · rw [if_neg hend] at g2
            obtain ⟨e1, e2, e3, e4⟩ := inflateOuter_spec hc hi src len hls hlen m s' (index + n) y' (by omega) (by omega) g2.1 g2.2
            refine ⟨e1, e2, fun nd => ?_, e4⟩
            obtain ⟨n1, hn1⟩ := e3 nd
            refine ⟨n1 + (hc.bounded.choose (src.take index ++ (src.drop index).take n).length - dst.length) + 3, fun fuel hf => ?_⟩
            obtain ⟨fuel, rfl⟩ : ∃ f, fuel = f + 1 := ⟨fuel - 1, by omega⟩
            show inflateOuter nd c src len (fuel + 1) s index dst = _
            rw [hstep, if_neg h0, g1 nd fuel (by omega), Ran.val_bind]
            simp only [hend, if_false]
            exact hn1 fuel (by omega)
    by_cases hmore : index + Lib.zlib.chunk < len
    · exact key _ (takeIn_more hmore (by omega)) (by omega) (by omega)
    · exact key _ (takeIn_last (by omega) hidx (by omega)) (by omega) (by omega)

/-! ### bzip2 -/

theorem bunzipInner_step (nd : Bool) (fuel : Nat) (s : σ) (input dst : Bytes) {r : Called σ} (hcall : c.call s false input Lib.bzip2.chunk = r)
    (hm : nd = true ∨ r.rc = .ok ∨ r.rc = .streamEnd) (hl : r.out.length ≤ Lib.bzip2.chunk) :
    bunzipInner nd c (fuel + 1) s input dst =
      if r.out.length = Lib.bzip2.chunk then bunzipInner nd c fuel r.next (input.drop r.used) (dst ++ r.out)
      else .val (r.rc, input.drop r.used, r.next, dst ++ r.out) := by
  rw [bunzipInner]
  simp only [hcall]
  rw [Ran.assert_true (by simpa using hm), Ran.val_bind]
  by_cases h : r.out.length = Lib.bzip2.chunk
  · rw [if_pos (by omega), if_pos h]
  · rw [if_neg (by omega), if_neg h]

theorem bunzipInner_succ (nd : Bool) (fuel : Nat) (s : σ) (input dst : Bytes) : bunzipInner nd c (fuel + 1) s input dst =
    (Ran.assert nd ((c.call s false input Lib.bzip2.chunk).rc = .ok ∨ (c.call s false input Lib.bzip2.chunk).rc = .streamEnd)).bind fun _ =>
      if Lib.bzip2.chunk - (c.call s false input Lib.bzip2.chunk).out.length = 0 then
        bunzipInner nd c fuel (c.call s false input Lib.bzip2.chunk).next (input.drop (c.call s false input Lib.bzip2.chunk).used)
          (dst ++ (c.call s false input Lib.bzip2.chunk).out)
      else .val ((c.call s false input Lib.bzip2.chunk).rc, input.drop (c.call s false input Lib.bzip2.chunk).used,
        (c.call s false input Lib.bzip2.chunk).next, dst ++ (c.call s false input Lib.bzip2.chunk).out) := rfl

/-- More steps do not change what the loop comes to. -/
theorem bunzipInner_mono (nd : Bool) : ∀ (fuel : Nat) (s : σ) (input dst : Bytes), bunzipInner nd c fuel s input dst ≠ .diverge →
    bunzipInner nd c (fuel + 1) s input dst = bunzipInner nd c fuel s input dst
  | 0, _, _, _, h => absurd rfl h
  | fuel + 1, s, input, dst, h => by
    rw [bunzipInner_succ nd fuel] at h ⊢
    rw [bunzipInner_succ nd (fuel + 1)]
    generalize c.call s false input Lib.bzip2.chunk = r at h ⊢
    generalize Ran.assert nd _ = a at h ⊢
    cases a with
    | val u =>
      simp only [Ran.val_bind] at h ⊢
      split at h
      · rename_i hf
        rw [if_pos hf, if_pos hf]
        exact bunzipInner_mono nd fuel _ _ _ h
      · rename_i hf
        rw [if_neg hf, if_neg hf]
    | abort => rfl
    | ub => rfl
    | diverge => rfl

theorem bunzipInner_cases (nd : Bool) {n : Nat} {s : σ} {input dst : Bytes} {r} (h : ∀ fuel, n < fuel → bunzipInner nd c fuel s input dst = r) (fuel : Nat) :
    bunzipInner nd c fuel s input dst = .diverge ∨ bunzipInner nd c fuel s input dst = r := by
  by_cases hd : bunzipInner nd c fuel s input dst = .diverge
  · exact Or.inl hd
  · right
    have : ∀ j, bunzipInner nd c (fuel + j) s input dst = bunzipInner nd c fuel s input dst := by
      intro j
      induction j with
      | zero => rfl
      | succ j ih =>
        rw [← Nat.add_assoc, bunzipInner_mono nd (fuel + j) s input dst (by rw [ih]; exact hd), ih]
    rw [← this (n + 1)]
    exact h _ (by omega)

/-- The last octets filled the buffer. -/
def Filled (chunk : Nat) (y d : Bytes) : Prop := y.length < d.length ∧ chunk ∣ d.length - y.length

/-- What the inner loop of `bz2_decompress` comes to on a complete stream `z` for `d`, or part of one. -/
theorem bunzipInner_spec (hc : Decompressor .bzip2 Form c) {start : σ} (hi : c.init = some start) {d z : Bytes} (hform : Form d z) :
    ∀ (k : Nat) (s : σ) (x y input : Bytes), c.Decompressing .bzip2 start s x y false → Along (x ++ input) z →
      hc.bounded.choose (x ++ input).length - y.length < k →
      (∃ s' u, (∀ nd fuel, k < fuel → bunzipInner nd c fuel s input y = .val (.streamEnd, input.drop u, s', d)) ∧
        x ++ input.take u = z ∧ (z <+: x ++ input → ¬ Filled Lib.bzip2.chunk y d)) ∨
      (∃ s' u, (∀ fuel, k < fuel → bunzipInner false c fuel s input y = .abort) ∧
        (∀ fuel, k < fuel → bunzipInner true c fuel s input y = .val (.seqError, input.drop u, s', d)) ∧
        c.Decompressing .bzip2 start s' z d true ∧ x ++ input.take u = z ∧ Filled Lib.bzip2.chunk y d) ∨
      (∃ s' y', (∀ nd fuel, k < fuel → bunzipInner nd c fuel s input y = .val (.ok, [], s', y')) ∧
        c.Decompressing .bzip2 start s' (x ++ input) y' false ∧ ¬ z <+: x ++ input)
  | 0, _, _, _, _, _, _, hk => by omega
  | k + 1, s, x, y, input, hr, ha, hk => by
    obtain ⟨hmono, hb⟩ := hc.bounded.choose_spec
    have hp : 0 < Lib.bzip2.chunk := by decide
    obtain ⟨h1, h2⟩ := hc.sizes hi hr input _ hp
    have h4 := hc.busy hi hr input _ hp
    obtain ⟨h3, h5, h6, h8⟩ := hc.reads hi hr input _ hp d z hform ha
    have h7 := hc.ends hi hr input _ hp d z hform
    have hr' := hr.step input hp h3
    generalize hcall : c.call s false input Lib.bzip2.chunk = r at *
    have hstep := fun nd fuel => bunzipInner_step nd fuel s input y hcall (Or.inr h3) h2
    by_cases hend : r.rc = .streamEnd
    · rw [decide_eq_true hend] at hr'
      obtain ⟨hyd, hxz⟩ := h8 hend
      by_cases hfull : r.out.length = Lib.bzip2.chunk
      · right; left
        obtain ⟨a1, a2, a3⟩ := hc.after hi hr' (input.drop r.used) _ hp
        have hidle := hr'.idle (input.drop r.used) hp
        refine ⟨(c.call r.next false (input.drop r.used) Lib.bzip2.chunk).next, r.used, ?_, ?_, ?_, hxz, ?_⟩
        · intro fuel hf
          obtain ⟨fuel, rfl⟩ : ∃ f, fuel = f + 2 := ⟨fuel - 2, by omega⟩
          rw [hstep false (fuel + 1), if_pos hfull, bunzipInner, a1]
          rfl
        · intro fuel hf
          obtain ⟨fuel, rfl⟩ : ∃ f, fuel = f + 2 := ⟨fuel - 2, by omega⟩
          rw [hstep true (fuel + 1), if_pos hfull, bunzipInner_step true fuel _ _ _ rfl (Or.inl rfl) (by rw [a2]; simp), if_neg (by rw [a2]; simp [Lib.chunk]),
            a1, a2, a3, List.append_nil, hyd]
          rfl
        · rw [hyd, hxz] at hidle; exact hidle
        · rw [← hyd]
          simp [Filled, hfull, hp]
      · left
        refine ⟨r.next, r.used, ?_, hxz, ?_⟩
        · intro nd fuel hf
          obtain ⟨fuel, rfl⟩ : ∃ f, fuel = f + 1 := ⟨fuel - 1, by omega⟩
          rw [hstep nd fuel, if_neg hfull, hend, hyd]
        · rintro - ⟨f1, f2⟩
          rw [← hyd, List.length_append] at f1 f2
          have := Nat.le_of_dvd (by omega) f2
          omega
    · rw [decide_eq_false hend] at hr'
      by_cases hfull : r.out.length = Lib.bzip2.chunk
      · have hxx : x ++ input.take r.used ++ input.drop r.used = x ++ input := by simp
        have hbd := hb hi hr'
        have hle : hc.bounded.choose (x ++ input.take r.used).length ≤ hc.bounded.choose (x ++ input).length := hmono (by simp)
        have hch : Lib.bzip2.chunk = 4096 := rfl
        have hrec := bunzipInner_spec hc hi hform k r.next (x ++ input.take r.used) (y ++ r.out) (input.drop r.used) hr' (by rw [hxx]; exact ha)
          (by rw [hxx]; simp only [List.length_append] at hbd ⊢ hk hle; omega)
        rw [hxx] at hrec
        have hgo : ∀ nd fuel, k + 1 < fuel → ∀ r', (k < fuel - 1 → bunzipInner nd c (fuel - 1) r.next (input.drop r.used) (y ++ r.out) = r') →
            bunzipInner nd c fuel s input y = r' := by
          intro nd fuel hf r' h
          obtain ⟨fuel, rfl⟩ : ∃ f, fuel = f + 1 := ⟨fuel - 1, by omega⟩
          rw [hstep nd fuel, if_pos hfull]
          exact h (by omega)
        have hdl : y.length + r.out.length ≤ d.length := by have := h6.length_le; simpa using this
        have htk : ∀ u, x ++ input.take (r.used + u) = x ++ input.take r.used ++ (input.drop r.used).take u := by
          intro u; rw [List.take_add, List.append_assoc]
        have hdr : ∀ u, (input.drop r.used).drop u = input.drop (r.used + u) := fun u => List.drop_drop
        rcases hrec with ⟨s', u, g1, g2, g3⟩ | ⟨s', u, g1, g2, g3, g4, g5⟩ | ⟨s', y', g1, g2, g3⟩
        · refine Or.inl ⟨s', r.used + u, fun nd fuel hf => hgo nd fuel hf _ fun h => by rw [← hdr]; exact g1 nd _ h, by rw [htk]; exact g2, ?_⟩
          rintro hz ⟨f1, f2⟩
          have hd' : Lib.bzip2.chunk ∣ d.length - (y ++ r.out).length := by
            rw [List.length_append, hfull, ← Nat.sub_sub]
            exact Nat.dvd_sub f2 (Nat.dvd_refl _)
          have hnl : ¬ (y ++ r.out).length < d.length := fun h => g3 hz ⟨h, hd'⟩
          have heq : y ++ r.out = d := h6.eq_of_length (by rw [List.length_append] at hnl ⊢; omega)
          exact hend (h7 hz (Or.inl heq))
        · refine Or.inr (Or.inl ⟨s', r.used + u, fun fuel hf => hgo false fuel hf _ fun h => g1 _ h,
            fun fuel hf => hgo true fuel hf _ fun h => by rw [← hdr]; exact g2 _ h, g3, by rw [htk]; exact g4, ?_, ?_⟩)
          · have := g5.1; rw [List.length_append] at this; omega
          · have := g5.2
            rw [List.length_append, hfull] at this
            have h9 := g5.1
            rw [List.length_append, hfull] at h9
            have h10 := Nat.dvd_add this (Nat.dvd_refl Lib.bzip2.chunk)
            rwa [show d.length - (y.length + Lib.bzip2.chunk) + Lib.bzip2.chunk = d.length - y.length by omega] at h10
        · exact Or.inr (Or.inr ⟨s', y', fun nd fuel hf => hgo nd fuel hf _ fun h => g1 nd _ h, g2, g3⟩)
      · right; right
        have hu : r.used = input.length := h4 h3 hend (by omega)
        rw [hu, List.take_length] at hr'
        refine ⟨r.next, y ++ r.out, ?_, hr', fun hz => hend (h7 hz (Or.inr (by omega)))⟩
        intro nd fuel hf
        obtain ⟨fuel, rfl⟩ : ∃ f, fuel = f + 1 := ⟨fuel - 1, by omega⟩
        rw [hstep nd fuel, if_neg hfull, hu, List.drop_length]
        rcases h3 with h3 | h3
        · rw [h3]
        · exact absurd h3 hend

theorem bunzipOuter_step (nd : Bool) (src : Bytes) (len fuel : Nat) (s : σ) (index : Nat) (dst : Bytes) {n : Nat} {input : Bytes}
    (hn : takeIn Lib.bzip2.chunk len index = n) (hin : handIn src index n = .val input) :
    bunzipOuter nd c src len (fuel + 1) s index dst =
      (bunzipInner nd c fuel s input dst).bind fun r =>
        (Ran.assert nd (r.2.1 = [])).bind fun _ =>
          if r.1 = .streamEnd then .val r.2.2.2
          else bunzipOuter nd c src len fuel r.2.2.1 ((index + n) % 2 ^ 32) r.2.2.2 := by
  rw [bunzipOuter]
  simp only [hn, hin, Ran.val_bind]

/-- A stream that has ended and is called again and again keeps `bz2_decompress` busy for ever, without assertions. -/
theorem bunzipOuter_ended (hc : Decompressor .bzip2 Form c) {start : σ} (hi : c.init = some start) (src : Bytes) (len : Nat) (hls : len ≤ src.length)
    (hlen : len + Lib.bzip2.chunk < 2 ^ 32) {x y : Bytes} : ∀ (fuel : Nat) (s : σ) (index : Nat) (dst : Bytes), index ≤ len →
      c.Decompressing .bzip2 start s x y true → bunzipOuter true c src len fuel s index dst = .diverge
  | 0, _, _, _, _, _ => rfl
  | fuel + 1, s, index, dst, hidx, hr => by
    have hp : 0 < Lib.bzip2.chunk := by decide
    have key : ∀ n, takeIn Lib.bzip2.chunk len index = n → index + n ≤ len → bunzipOuter true c src len (fuel + 1) s index dst = .diverge := by
      intro n hn hle
      have hin := handIn_in (src := src) (index := index) (n := n) (by omega)
      rw [bunzipOuter_step true src len fuel s index dst hn hin]
      cases fuel with
      | zero => rfl
      | succ fuel =>
        obtain ⟨a1, a2, a3⟩ := hc.after hi hr ((src.drop index).take n) _ hp
        rw [bunzipInner_step true fuel _ _ _ rfl (Or.inl rfl) (by rw [a2]; simp), if_neg (by rw [a2]; simp [Lib.chunk])]
        rw [Ran.val_bind, Ran.assert_true (Or.inl rfl), Ran.val_bind]
        simp only
        rw [if_neg (by rw [a1]; decide), Nat.mod_eq_of_lt (by omega)]
        exact bunzipOuter_ended hc hi src len hls hlen (fuel + 1) _ _ _ hle (hr.idle _ hp)
    by_cases hmore : index + Lib.bzip2.chunk < len
    · exact key _ (takeIn_more hmore (by omega)) (by omega)
    · exact key _ (takeIn_last (by omega) hidx (by omega)) (by omega)

/-- Part of a stream keeps `bz2_decompress` busy for ever. -/
theorem bunzipOuter_truncated (hc : Decompressor .bzip2 Form c) {start : σ} (hi : c.init = some start) {d z : Bytes} (hform : Form d z) (nd : Bool)
    (src : Bytes) (hsrc : src <+: z) (hne : src ≠ z) (hlen : src.length + Lib.bzip2.chunk < 2 ^ 32) :
    ∀ (fuel : Nat) (s : σ) (index : Nat) (dst : Bytes), index ≤ src.length →
      c.Decompressing .bzip2 start s (src.take index) dst false → bunzipOuter nd c src src.length fuel s index dst = .diverge
  | 0, _, _, _, _, _ => rfl
  | fuel + 1, s, index, dst, hidx, hr => by
    have key : ∀ n, takeIn Lib.bzip2.chunk src.length index = n → index + n ≤ src.length →
        bunzipOuter nd c src src.length (fuel + 1) s index dst = .diverge := by
      intro n hn hle
      have hin := handIn_in (src := src) (index := index) (n := n) hle
      have hx : src.take index ++ (src.drop index).take n = src.take (index + n) := List.take_add.symm
      have hxz : src.take (index + n) <+: z := (List.take_prefix _ _).trans hsrc
      have hnz : ¬ z <+: src.take (index + n) := by
        intro h
        have h1 := (List.take_prefix (index + n) src).length_le
        have h2 := h.length_le
        exact hne (hsrc.eq_of_length (Nat.le_antisymm hsrc.length_le (h2.trans h1)))
      rw [bunzipOuter_step nd src src.length fuel s index dst hn hin]
      have spec := bunzipInner_spec hc hi hform _ s (src.take index) dst ((src.drop index).take n) hr (by rw [hx]; exact Or.inl hxz) (Nat.lt_succ_self _)
      rw [hx] at spec
      have hcov : ∀ u, src.take index ++ ((src.drop index).take n).take u = z → False := by
        intro u hu
        apply hnz
        rw [← hu, ← hx]
        exact (List.prefix_append_right_inj _).mpr (List.take_prefix _ _)
      rcases spec with ⟨s', u, -, g2, -⟩ | ⟨s', u, -, -, -, g2, -⟩ | ⟨s', y', g1, g2, -⟩
      · exact (hcov u g2).elim
      · exact (hcov u g2).elim
      · rcases bunzipInner_cases nd (fun fuel hf => g1 nd fuel hf) fuel with h | h
        · rw [h]; rfl
        · rw [h, Ran.val_bind, Ran.assert_true (by simp), Ran.val_bind]
          simp only
          rw [if_neg (by decide), Nat.mod_eq_of_lt (by omega)]
          exact bunzipOuter_truncated hc hi hform nd src hsrc hne hlen fuel s' _ y' hle g2
    have hch : Lib.bzip2.chunk = 4096 := rfl
    by_cases hmore : index + Lib.bzip2.chunk < src.length
    · exact key _ (takeIn_more hmore (by omega)) (by omega)
    · exact key _ (takeIn_last (by omega) hidx (by omega)) (by omega)

/-- `bz2_decompress` on a complete stream with anything behind it. `full` says that the last octets put out filled the buffer, `rest` that
octets were handed over that the stream did not use. -/
theorem bunzipOuter_spec (hc : Decompressor .bzip2 Form c) {start : σ} (hi : c.init = some start) {d z : Bytes} (hform : Form d z)
    (src : Bytes) (len : Nat) (hls : len ≤ src.length) (hsrc : z <+: src.take len) (hlen : len + Lib.bzip2.chunk < 2 ^ 32) :
    ∀ (m : Nat) (s : σ) (index : Nat) (dst : Bytes), len - index < m → index ≤ len → Lib.bzip2.chunk ∣ index →
      c.Decompressing .bzip2 start s (src.take index) dst false → ¬ z <+: src.take index →
      ∃ full : Bool,
        (z.length ≤ index + Lib.bzip2.chunk → (full = true ↔ Filled Lib.bzip2.chunk dst d)) ∧
        Ran.To (fun fuel => bunzipOuter false c src len fuel s index dst)
          (if full = true ∨ (z.length ≠ len ∧ ¬ Lib.bzip2.chunk ∣ z.length) then .abort else .val d) ∧
        (if full = true then Ran.Forever (fun fuel => bunzipOuter true c src len fuel s index dst)
          else Ran.To (fun fuel => bunzipOuter true c src len fuel s index dst) (.val d))
  | 0, _, _, _, hm, _, _, _, _ => by omega
  | m + 1, s, index, dst, hm, hidx, hdvd, hr, hno => by
    have hch : Lib.bzip2.chunk = 4096 := rfl
    have hzl : z.length ≤ len := by have := hsrc.length_le; rw [List.length_take] at this; omega
    have hiz : index < z.length := by
      by_contra hge
      apply hno
      have h1 : src.take index <+: src.take len := by
        rw [show index = min index len by omega, ← List.take_take]; exact List.take_prefix _ _
      rcases List.prefix_or_prefix_of_prefix h1 hsrc with h | h
      · have h2 := h.length_le
        rw [List.length_take] at h2
        exact (h.eq_of_length (by rw [List.length_take]; omega)) ▸ List.prefix_rfl
      · exact h
    have key : ∀ n, takeIn Lib.bzip2.chunk len index = n → index + n ≤ len → (index + n = len ∨ n = Lib.bzip2.chunk) → n ≤ Lib.bzip2.chunk → 0 < n →
      ∃ full : Bool,
        (z.length ≤ index + Lib.bzip2.chunk → (full = true ↔ Filled Lib.bzip2.chunk dst d)) ∧
        Ran.To (fun fuel => bunzipOuter false c src len fuel s index dst)
          (if full = true ∨ (z.length ≠ len ∧ ¬ Lib.bzip2.chunk ∣ z.length) then .abort else .val d) ∧
        (if full = true then Ran.Forever (fun fuel => bunzipOuter true c src len fuel s index dst)
          else Ran.To (fun fuel => bunzipOuter true c src len fuel s index dst) (.val d)) := by
      intro n hn hle hor hnc hpos
      have hin := handIn_in (src := src) (index := index) (n := n) (by omega)
      have hx : src.take index ++ (src.drop index).take n = src.take (index + n) := List.take_add.symm
      have hpre : src.take (index + n) <+: src.take len := by
        rw [show index + n = min (index + n) len by omega, ← List.take_take]; exact List.take_prefix _ _
      have hal : Along (src.take (index + n)) z := List.prefix_or_prefix_of_prefix hpre hsrc
      have hstep := fun nd fuel => bunzipOuter_step (c := c) nd src len fuel s index dst hn hin
      have spec := bunzipInner_spec hc hi hform _ s (src.take index) dst ((src.drop index).take n) hr (by rw [hx]; exact hal) (Nat.lt_succ_self _)
      generalize (hc.bounded.choose (src.take index ++ (src.drop index).take n).length - dst.length).succ = K at spec
      rw [hx] at spec
      have hil : (src.take index).length = index := by rw [List.length_take]; omega
      have hnl : ((src.drop index).take n).length = n := by rw [List.length_take, List.length_drop]; omega
      -- the stream ends in this piece: what is left of it
      have hleft : ∀ u, src.take index ++ ((src.drop index).take n).take u = z →
          z <+: src.take (index + n) ∧ z.length ≤ index + n ∧
          (((src.drop index).take n).drop u = [] ↔ ¬ (z.length ≠ len ∧ ¬ Lib.bzip2.chunk ∣ z.length)) := by
        intro u hu
        have hz' : z <+: src.take (index + n) := by
          rw [← hu, ← hx]; exact (List.prefix_append_right_inj _).mpr (List.take_prefix _ _)
        have hl := congrArg List.length hu
        rw [List.length_append, hil, List.length_take, hnl] at hl
        refine ⟨hz', by omega, ?_⟩
        rw [List.drop_eq_nil_iff, hnl]
        constructor
        · intro h ⟨h1, h2⟩
          rcases hor with h3 | h3
          · omega
          · apply h2
            rw [show z.length = index + n by omega, h3]
            exact Nat.dvd_add hdvd (Nat.dvd_refl _)
        · intro h
          by_contra hlt
          apply h
          refine ⟨by omega, ?_⟩
          intro hd
          have := Nat.dvd_sub hd hdvd
          have := Nat.le_of_dvd (by omega) this
          omega
      rcases spec with ⟨s', u, g1, g2, g3⟩ | ⟨s', u, g1, g2, g3, g4, g5⟩ | ⟨s', y', g1, g2, g3⟩
      · obtain ⟨l1, l2, l3⟩ := hleft u g2
        refine ⟨false, fun _ => by simp [g3 l1], ?_, ?_⟩
        · refine ⟨K + 2, fun fuel hf => ?_⟩
          obtain ⟨fuel, rfl⟩ : ∃ f, fuel = f + 1 := ⟨fuel - 1, by omega⟩
          show bunzipOuter false c src len (fuel + 1) s index dst = _
          rw [hstep, g1 false fuel (by omega), Ran.val_bind]
          simp only [Bool.false_eq_true, false_or]
          by_cases h : ((src.drop index).take n).drop u = []
          · rw [Ran.assert_true (by simp [h]), Ran.val_bind, if_neg (l3.mp h)]; rfl
          · rw [if_pos (by_contra fun h' => h (l3.mpr h')), decide_eq_false h, Ran.assert_false, Ran.abort_bind]
        · rw [if_neg (by decide)]
          refine ⟨K + 2, fun fuel hf => ?_⟩
          obtain ⟨fuel, rfl⟩ : ∃ f, fuel = f + 1 := ⟨fuel - 1, by omega⟩
          show bunzipOuter true c src len (fuel + 1) s index dst = _
          rw [hstep, g1 true fuel (by omega), Ran.val_bind, Ran.assert_true (Or.inl rfl), Ran.val_bind, if_pos rfl]
      · obtain ⟨l1, l2, l3⟩ := hleft u g4
        refine ⟨true, fun _ => by simp [g5], ?_, ?_⟩
        · refine ⟨K + 2, fun fuel hf => ?_⟩
          obtain ⟨fuel, rfl⟩ : ∃ f, fuel = f + 1 := ⟨fuel - 1, by omega⟩
          show bunzipOuter false c src len (fuel + 1) s index dst = _
          rw [hstep, g1 fuel (by omega), Ran.abort_bind, if_pos (Or.inl rfl)]
        · rw [if_pos rfl]
          intro fuel
          cases fuel with
          | zero => rfl
          | succ fuel =>
            show bunzipOuter true c src len (fuel + 1) s index dst = _
            rw [hstep]
            rcases bunzipInner_cases true g2 fuel with h | h
            · rw [h]; rfl
            · rw [h, Ran.val_bind, Ran.assert_true (Or.inl rfl), Ran.val_bind]
              simp only
              rw [if_neg (by decide), Nat.mod_eq_of_lt (by omega)]
              exact bunzipOuter_ended hc hi src len hls hlen fuel _ _ _ hle g3
      · have hnc2 : n = Lib.bzip2.chunk := by
          rcases hor with h | h
          · rw [h] at g3; exact absurd hsrc g3
          · exact h
        have hlt : index + n < z.length := by
          by_contra hge
          apply g3
          rcases hal with h | h
          · have h2 := h.length_le
            rw [List.length_take] at h2
            exact (h.eq_of_length (by rw [List.length_take]; omega)) ▸ List.prefix_rfl
          · exact h
        obtain ⟨full, e1, e2, e3⟩ := bunzipOuter_spec hc hi hform src len hls hsrc hlen m s' (index + n) y' (by omega) hle
          (by rw [hnc2]; exact Nat.dvd_add hdvd (Nat.dvd_refl _)) g2 g3
        have hgo : ∀ nd fuel, K < fuel → bunzipOuter nd c src len (fuel + 1) s index dst = bunzipOuter nd c src len fuel s' (index + n) y' := by
          intro nd fuel hf
          rw [hstep, g1 nd fuel hf, Ran.val_bind, Ran.assert_true (by simp), Ran.val_bind]
          simp only
          rw [if_neg (by decide), Nat.mod_eq_of_lt (by omega)]
        refine ⟨full, fun h => absurd h (by omega), ?_, ?_⟩
        · obtain ⟨n1, hn1⟩ := e2
          refine ⟨n1 + K + 2, fun fuel hf => ?_⟩
          obtain ⟨fuel, rfl⟩ : ∃ f, fuel = f + 1 := ⟨fuel - 1, by omega⟩
          exact (hgo false fuel (by omega)).trans (hn1 fuel (by omega))
        · cases full
          · rw [if_neg (by decide)] at e3 ⊢
            obtain ⟨n1, hn1⟩ := e3
            refine ⟨n1 + K + 2, fun fuel hf => ?_⟩
            obtain ⟨fuel, rfl⟩ : ∃ f, fuel = f + 1 := ⟨fuel - 1, by omega⟩
            exact (hgo true fuel (by omega)).trans (hn1 fuel (by omega))
          · rw [if_pos rfl] at e3 ⊢
            intro fuel
            cases fuel with
            | zero => rfl
            | succ fuel =>
              show bunzipOuter true c src len (fuel + 1) s index dst = _
              rw [hstep]
              rcases bunzipInner_cases true (fun fuel hf => g1 true fuel hf) fuel with h | h
              · rw [h]; rfl
              · rw [h, Ran.val_bind, Ran.assert_true (Or.inl rfl), Ran.val_bind]
                simp only
                rw [if_neg (by decide), Nat.mod_eq_of_lt (by omega)]
                exact e3 fuel
    by_cases hmore : index + Lib.bzip2.chunk < len
    · exact key _ (takeIn_more hmore (by omega)) (by omega) (Or.inr rfl) (Nat.le_refl _) (by omega)
    · exact key _ (takeIn_last (by omega) hidx (by omega)) (by omega) (Or.inl (by omega)) (by omega) (by omega)

end OpenPGP
