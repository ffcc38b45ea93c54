import Verif.Model.Includes

namespace OpenPGP

@[simp] theorem makehex_length (v n : Nat) (c : Bool) : (makehex v n c).length = n := by
  induction n generalizing v with
  | zero => rfl
  | succ n ih => simp [makehex, ih]

@[simp] theorem makebin_length (v n : Nat) : (makebin v n).length = n := by
  induction n generalizing v with
  | zero => rfl
  | succ n ih => simp [makebin, ih]

theorem unhexChar_hexDigit (caps : Bool) (d : Nat) (h : d < 16) :
    unhexChar (hexDigit caps d) = some (UInt8.ofNat d) := by
  have : ∀ (caps : Bool) (d : Fin 16), unhexChar (hexDigit caps d.val) = some (UInt8.ofNat d.val) := by
    decide
  exact this caps ⟨d, h⟩

theorem nibbles (v : Nat) :
    ((UInt8.ofNat (v / 16 % 16)) <<< 4) ||| (UInt8.ofNat (v % 16)) = UInt8.ofNat v := by
  have key : ∀ x : Fin 256, ((UInt8.ofNat (x.val / 16 % 16)) <<< 4) ||| (UInt8.ofNat (x.val % 16))
      = UInt8.ofNat x.val := by decide +kernel
  have := key ⟨v % 256, Nat.mod_lt _ (by omega)⟩
  simp only at this
  rw [show v % 256 / 16 % 16 = v / 16 % 16 by omega, show v % 256 % 16 = v % 16 by omega] at this
  rw [this]
  apply UInt8.toNat_inj.mp
  simp

theorem unhexLoop_append (a b : Bytes) (ra rb : Bytes) (hl : a.length % 2 = 0)
    (ha : unhexLoop a = .ok ra) (hb : unhexLoop b = .ok rb) :
    unhexLoop (a ++ b) = .ok (ra ++ rb) := by
  induction a using unhexLoop.induct generalizing ra with
  | case1 x y rest h => simp [unhexLoop, h] at ha
  | case2 x y rest h hh h2 => simp [unhexLoop, hh, h2] at ha
  | case3 x y rest h hh l h2 ih =>
    simp only [unhexLoop, hh, h2, Out.bind_eq_ok, List.cons_append] at ha ⊢
    obtain ⟨r, hr, e⟩ := ha
    refine ⟨r ++ rb, ih r (by simp at hl; omega) hr, ?_⟩
    simp at e ⊢
    rw [← e]; rfl
  | case4 t h =>
    match t, h with
    | [], _ => simp [unhexLoop] at ha; subst ha; simpa using hb
    | [x], _ => simp at hl
    | x :: y :: r, h => exact absurd rfl (h x y r)

/-- `unhexlify(makehex(v, 2 * w))` is the big-endian representation in `w` octets. -/
theorem unhexLoop_makehex (v w : Nat) (caps : Bool) :
    unhexLoop (makehex v (2 * w) caps) = .ok (be w v) := by
  induction w generalizing v with
  | zero => rfl
  | succ w ih =>
    have e : makehex v (2 * (w + 1)) caps
        = makehex (v / 256) (2 * w) caps ++ [hexDigit caps (v / 16 % 16), hexDigit caps (v % 16)] := by
      rw [show 2 * (w + 1) = 2 * w + 1 + 1 by ring, makehex, makehex, Nat.div_div_eq_div_mul]
      simp
    rw [e, be]
    apply unhexLoop_append _ _ _ _ (by simp) (ih _)
    simp only [unhexLoop, unhexChar_hexDigit _ _ (Nat.mod_lt _ (by omega : 16 > 0)), Out.ok_bind,
      Out.pure_eq, nibbles]

theorem unhexlify_makehex (v w : Nat) (caps : Bool) :
    unhexlify (makehex v (2 * w) caps) = .ok (be w v) := by
  simp [unhexlify, unhexLoop_makehex]

theorem hexlify_length (s : Bytes) (caps : Bool) : (hexlify s caps).length = 2 * s.length := by
  induction s with
  | nil => rfl
  | cons c s ih =>
    simp only [hexlify, List.flatMap_cons, List.length_append, List.length_cons] at *
    rw [ih]; simp [hexlifyChar]; ring

theorem unhexLoop_hexlify (s : Bytes) (caps : Bool) : unhexLoop (hexlify s caps) = .ok s := by
  induction s with
  | nil => rfl
  | cons c s ih =>
    rw [hexlify, List.flatMap_cons]
    have h1 : unhexLoop (hexlifyChar c caps) = .ok [c] := by
      have := unhexLoop_makehex c.toNat 1 caps
      simpa [be, hexlifyChar] using this
    exact unhexLoop_append _ _ _ _ (by simp [hexlifyChar]) h1 ih

theorem tointBits_foldl (l : List Bool) (a : Nat) :
    l.foldl (fun v b => v * 2 + b.toNat) a = a * 2 ^ l.length + tointBits l := by
  induction l generalizing a with
  | nil => simp [tointBits]
  | cons c b ih =>
    simp only [List.foldl_cons, tointBits, List.length_cons]
    rw [ih, ih (0 * 2 + c.toNat)]
    ring

theorem tointBits_append (a b : List Bool) :
    tointBits (a ++ b) = tointBits a * 2 ^ b.length + tointBits b := by
  rw [tointBits, List.foldl_append, tointBits_foldl]; rfl

theorem tointBits_makebin (v n : Nat) : tointBits (makebin v n) = v % 2 ^ n := by
  induction n generalizing v with
  | zero => simp [makebin, tointBits, Nat.mod_one]
  | succ n ih =>
    rw [makebin, tointBits_append, ih, show 2 ^ (n + 1) = 2 * 2 ^ n by ring, Nat.mod_mul]
    have : tointBits [v % 2 == 1] = v % 2 := by
      rcases Nat.mod_two_eq_zero_or_one v with h | h <;> simp [tointBits, h]
    rw [this]; simp; ring

theorem tointBits_lt (l : List Bool) : tointBits l < 2 ^ l.length := by
  induction l using List.reverseRecOn with
  | nil => simp [tointBits]
  | append_singleton l a ih =>
    rw [tointBits_append, List.length_append, Nat.pow_add]
    have : tointBits [a] < 2 := by cases a <;> decide
    rw [show 2 ^ [a].length = 2 by rfl] at *
    omega

theorem makebin_tointBits (l : List Bool) : makebin (tointBits l) l.length = l := by
  induction l using List.reverseRecOn with
  | nil => rfl
  | append_singleton l a ih =>
    rw [List.length_append, List.length_singleton, makebin, tointBits_append]
    have h2 : tointBits [a] = a.toNat := by simp [tointBits]
    have h3 : a.toNat < 2 := by cases a <;> decide
    rw [h2, show 2 ^ [a].length = 2 by rfl]
    rw [show (tointBits l * 2 + a.toNat) / 2 = tointBits l by omega, ih,
      show (tointBits l * 2 + a.toNat) % 2 = a.toNat by omega]
    cases a <;> rfl

theorem makebin_mod (v n : Nat) : makebin (v % 2 ^ n) n = makebin v n := by
  have h := makebin_tointBits (makebin (v % 2 ^ n) n)
  have h2 := makebin_tointBits (makebin v n)
  rw [tointBits_makebin, makebin_length, Nat.mod_mod] at h
  rw [tointBits_makebin, makebin_length] at h2
  exact h.symm.trans (h.trans h2)

end OpenPGP
