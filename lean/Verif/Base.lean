import Mathlib.Data.List.Induction
import Mathlib.Tactic.Ring
import Mathlib.Tactic.Linarith

/-!
# Outcomes and octet-string primitives

`Out` is the result of one C++ call.  Octet strings (`std::string`) are `List UInt8`.
-/
namespace OpenPGP

/-- `std::string` used as a sequence of octets (signedness of `char` is made explicit where it matters). -/
abbrev Bytes := List UInt8

/-- Result of a C++ call: normal return, C++ exception, undefined behaviour (for instance an
out-of-range index), or a loop that never ends. -/
inductive Out (α : Type) where
  | ok (a : α)
  | throw
  | ub
  | diverge
  deriving DecidableEq, Repr

namespace Out

@[reducible] def bind {α β : Type} (x : Out α) (f : α → Out β) : Out β :=
  match x with
  | ok a => f a
  | throw => throw
  | ub => ub
  | diverge => diverge

instance : Monad Out where
  pure := ok
  bind := bind

@[simp] theorem pure_eq {α} (a : α) : (pure a : Out α) = ok a := rfl
@[simp] theorem ok_bind {α β} (a : α) (f : α → Out β) : (ok a >>= f) = f a := rfl
@[simp] theorem throw_bind {α β} (f : α → Out β) : ((throw : Out α) >>= f) = throw := rfl
@[simp] theorem ub_bind {α β} (f : α → Out β) : ((ub : Out α) >>= f) = ub := rfl
@[simp] theorem diverge_bind {α β} (f : α → Out β) : ((diverge : Out α) >>= f) = diverge := rfl
@[simp] theorem map_ok {α β} (g : α → β) (a : α) : (g <$> (ok a : Out α)) = ok (g a) := rfl
@[simp] theorem map_throw {α β} (g : α → β) : (g <$> (throw : Out α)) = throw := rfl
@[simp] theorem map_ub {α β} (g : α → β) : (g <$> (ub : Out α)) = ub := rfl
@[simp] theorem map_diverge {α β} (g : α → β) : (g <$> (diverge : Out α)) = diverge := rfl

theorem bind_eq_ok {α β} {x : Out α} {f : α → Out β} {b : β} :
    (x >>= f) = ok b ↔ ∃ a, x = ok a ∧ f a = ok b := by
  cases x <;> simp

theorem bind_assoc' {α β γ} (x : Out α) (f : α → Out β) (g : β → Out γ) :
    ((x >>= f) >>= g) = (x >>= fun a => f a >>= g) := by
  cases x <;> rfl

/-- The call returned or threw: no undefined behaviour, no endless loop. -/
def defined {α} : Out α → Prop
  | ok _ => True
  | throw => True
  | _ => False

instance {α} (x : Out α) : Decidable (defined x) := by
  cases x <;> simp only [defined] <;> infer_instance

@[simp] theorem defined_ok {α} (a : α) : defined (ok a) := trivial
@[simp] theorem defined_throw {α} : defined (throw : Out α) := trivial
@[simp] theorem not_defined_ub {α} : ¬ defined (ub : Out α) := id
@[simp] theorem not_defined_diverge {α} : ¬ defined (diverge : Out α) := id

theorem defined_bind {α β} {x : Out α} {f : α → Out β}
    (hx : defined x) (hf : ∀ a, x = ok a → defined (f a)) : defined (x >>= f) := by
  cases x <;> simp_all

/-- `if (c) throw` guards. -/
def guardThrow (c : Bool) : Out Unit := if c then throw else ok ()

end Out

/-- `std::string::substr(pos, n)`: throws `std::out_of_range` when `pos > size()`. -/
def substr (s : Bytes) (pos n : Nat) : Out Bytes :=
  if s.length < pos then .throw else .ok ((s.drop pos).take n)

/-- `std::string::substr(pos)`. -/
def substrFrom (s : Bytes) (pos : Nat) : Out Bytes :=
  if s.length < pos then .throw else .ok (s.drop pos)

/-- `std::string::operator[]`: index `size()` reads the terminating NUL, anything beyond is undefined. -/
def charAt (s : Bytes) (i : Nat) : Out UInt8 :=
  if h : i < s.length then .ok s[i] else if i = s.length then .ok 0 else .ub

/-- `std::vector::operator[]`: any index outside is undefined. -/
def vecAt {α : Type} (s : List α) (i : Nat) : Out α :=
  match s[i]? with
  | some a => .ok a
  | none => .ub

/-- `std::size_t` (64-bit) subtraction with wrap-around. -/
def subSz (a b : Nat) : Nat := if b ≤ a then a - b else a + 2 ^ 64 - b

/-- Big-endian representation of `v` in exactly `w` octets (higher octets are dropped).
The code writes this as `unhexlify(makehex(v, 2 * w))`; `unhexlify_makehex` proves they agree. -/
def be : Nat → Nat → Bytes
  | 0, _ => []
  | w + 1, v => be w (v / 256) ++ [UInt8.ofNat v]

/-- Value of a big-endian octet string. -/
def num (b : Bytes) : Nat := b.foldl (fun a c => a * 256 + c.toNat) 0

@[simp] theorem be_length (w v : Nat) : (be w v).length = w := by
  induction w generalizing v with
  | zero => rfl
  | succ w ih => simp [be, ih]

theorem num_foldl (b : Bytes) (a : Nat) :
    b.foldl (fun a c => a * 256 + c.toNat) a = a * 256 ^ b.length + num b := by
  induction b generalizing a with
  | nil => simp [num]
  | cons c b ih =>
    simp only [List.foldl_cons, num, List.length_cons]
    rw [ih, ih (0 * 256 + c.toNat)]
    ring

theorem num_append (a b : Bytes) : num (a ++ b) = num a * 256 ^ b.length + num b := by
  rw [num, List.foldl_append, num_foldl]; rfl

@[simp] theorem num_nil : num [] = 0 := rfl
@[simp] theorem num_singleton (c : UInt8) : num [c] = c.toNat := by simp [num]

theorem num_cons (c : UInt8) (b : Bytes) : num (c :: b) = c.toNat * 256 ^ b.length + num b := by
  have := num_append [c] b
  simpa using this

theorem num_be (w v : Nat) : num (be w v) = v % 256 ^ w := by
  induction w generalizing v with
  | zero => simp [be, Nat.mod_one]
  | succ w ih =>
    simp only [be, num_append, ih, num_singleton, List.length_singleton, Nat.pow_one,
      UInt8.toNat_ofNat']
    rw [show 256 ^ (w + 1) = 256 * 256 ^ w by ring, Nat.mod_mul]
    omega

theorem num_lt (b : Bytes) : num b < 256 ^ b.length := by
  induction b with
  | nil => simp
  | cons c b ih =>
    rw [num_cons, List.length_cons, Nat.pow_succ]
    have hc := c.toNat_lt
    have : c.toNat * 256 ^ b.length + 256 ^ b.length ≤ 256 * 256 ^ b.length := by
      rw [← Nat.succ_mul]; exact Nat.mul_le_mul_right _ (by omega)
    rw [Nat.mul_comm (256 ^ _)]; omega

theorem be_num (b : Bytes) : be b.length (num b) = b := by
  induction b using List.reverseRecOn with
  | nil => rfl
  | append_singleton l a ih =>
    have ha := a.toNat_lt
    rw [List.length_append, List.length_singleton, be, num_append, num_singleton]
    simp only [List.length_singleton, Nat.pow_one]
    have h1 : (num l * 256 + a.toNat) / 256 = num l := by omega
    rw [h1, ih]
    congr 2
    apply UInt8.toNat_inj.mp
    simp only [UInt8.toNat_ofNat']
    omega

theorem be_inj {w u v : Nat} (hu : u < 256 ^ w) (hv : v < 256 ^ w) (h : be w u = be w v) : u = v := by
  have := congrArg num h
  rwa [num_be, num_be, Nat.mod_eq_of_lt hu, Nat.mod_eq_of_lt hv] at this

theorem be_mod (w v : Nat) : be w (v % 256 ^ w) = be w v := by
  have h := be_num (be w (v % 256 ^ w))
  have h2 := be_num (be w v)
  rw [num_be, be_length, Nat.mod_mod] at h
  rw [num_be, be_length] at h2
  exact h.symm.trans (h.trans h2)

/-! Reading at a position, phrased through `data.drop pos`. -/

theorem charAt_drop {data : Bytes} {pos : Nat} {c : UInt8} {rest : Bytes}
    (h : data.drop pos = c :: rest) : charAt data pos = .ok c := by
  have hl : pos < data.length := by
    by_contra hc
    rw [List.drop_eq_nil_of_le (by omega)] at h
    exact absurd h (by simp)
  rw [List.drop_eq_getElem_cons hl] at h
  rw [charAt, dif_pos hl]
  exact congrArg _ (List.cons.inj h).1

theorem drop_add_of {data : Bytes} {pos : Nat} {m rest : Bytes}
    (h : data.drop pos = m ++ rest) : data.drop (pos + m.length) = rest := by
  rw [← List.drop_drop, h, List.drop_left]

theorem drop_succ_of {data : Bytes} {pos : Nat} {c : UInt8} {rest : Bytes}
    (h : data.drop pos = c :: rest) : data.drop (pos + 1) = rest :=
  drop_add_of (m := [c]) h

theorem substr_drop {data : Bytes} {pos n : Nat} {m rest : Bytes} (hp : pos ≤ data.length)
    (h : data.drop pos = m ++ rest) (hn : m.length = n) : substr data pos n = .ok m := by
  rw [substr, if_neg (by omega), h, ← hn, List.take_left]

theorem le_of_drop_cons {data : Bytes} {pos : Nat} {c : UInt8} {rest : Bytes}
    (h : data.drop pos = c :: rest) : pos + 1 ≤ data.length := by
  by_contra hc
  rw [List.drop_eq_nil_of_le (by omega)] at h
  exact absurd h (by simp)

theorem le_of_drop {data : Bytes} {pos : Nat} {m rest : Bytes} (hp : pos ≤ data.length)
    (h : data.drop pos = m ++ rest) : pos + m.length ≤ data.length := by
  have := congrArg List.length h
  rw [List.length_drop, List.length_append] at this
  omega

theorem be_two (v : Nat) : be 2 v = [UInt8.ofNat (v / 256), UInt8.ofNat v] := rfl
theorem be_four (v : Nat) : be 4 v =
    [UInt8.ofNat (v / 256 / 256 / 256), UInt8.ofNat (v / 256 / 256), UInt8.ofNat (v / 256), UInt8.ofNat v] := rfl

end OpenPGP
