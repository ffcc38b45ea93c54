import Mathlib.Data.List.Rotate
import Mathlib.Data.Nat.Digits.Lemmas
import Verif.Lemmas.Includes
import Verif.Lemmas.Shown
import Verif.Model.Strings
import Verif.Spec.Strings
import Verif.Props.C01

/-!
# C68  Bits, digits, octets and numbers

`binify`, `unbinify`, `bintohex`, `little_end`, `ROL`, `toint`, `trim_whitespace`, `pkcs5`, `remove_pkcs5` and the conversions of big numbers.
-/
namespace OpenPGP
open Spec

theorem octet_all {P : UInt8 → Prop} (h : ∀ c : Fin 256, P (UInt8.ofNat c.val)) (c : UInt8) : P c := by
  have := h ⟨c.toNat, c.toNat_lt⟩
  simpa using this

/-- The bits of one octet. -/
def octetBits8 (c : UInt8) : List Bool := [c.toNat.testBit 7, c.toNat.testBit 6, c.toNat.testBit 5, c.toNat.testBit 4,
  c.toNat.testBit 3, c.toNat.testBit 2, c.toNat.testBit 1, c.toNat.testBit 0]

theorem bitsIn_cons (c : UInt8) (s : Bytes) : bitsIn (c :: s) = octetBits8 c ++ bitsIn s := by simp [bitsIn, octetBits8]

theorem bitsIn_append (a b : Bytes) : bitsIn (a ++ b) = bitsIn a ++ bitsIn b := by simp [bitsIn]

theorem bitsIn_length (s : Bytes) : (bitsIn s).length = 8 * s.length := by
  induction s with
  | nil => rfl
  | cons c s ih => rw [bitsIn_cons, List.length_append, ih]; simp [octetBits8]; omega

theorem octetBits_inj {a b : UInt8} (h : octetBits8 a = octetBits8 b) : a = b := by
  have key : ∀ c : Fin 256, (octetBits8 (UInt8.ofNat c.val)).foldl (fun v b => v * 2 + b.toNat) 0 = c.val := by decide +kernel
  have ha := key ⟨a.toNat, a.toNat_lt⟩
  have hb := key ⟨b.toNat, b.toNat_lt⟩
  simp only [UInt8.ofNat_toNat] at ha hb
  apply UInt8.toNat_inj.mp
  rw [← ha, ← hb, h]

theorem bitsIn_inj {a b : Bytes} (h : bitsIn a = bitsIn b) : a = b := by
  induction a generalizing b with
  | nil =>
    cases b with
    | nil => rfl
    | cons => have := congrArg List.length h; simp [bitsIn_length] at this
  | cons x a ih =>
    cases b with
    | nil => have := congrArg List.length h; simp [bitsIn_length] at this
    | cons y b =>
      rw [bitsIn_cons, bitsIn_cons] at h
      obtain ⟨h1, h2⟩ := List.append_inj h (by simp [octetBits8])
      rw [octetBits_inj h1, ih h2]

/-! ## Bits as characters -/

theorem binifyChar_eq (c : UInt8) : binifyChar c 8 = (octetBits8 c).map bitChar :=
  octet_all (P := fun c => binifyChar c 8 = (octetBits8 c).map bitChar) (by decide +kernel) c

theorem binify_flat (s : Bytes) : (s.flatMap fun c => binifyChar c 8) = (bitsIn s).map bitChar := by
  induction s with
  | nil => rfl
  | cons c s ih => rw [List.flatMap_cons, ih, bitsIn_cons, List.map_append, binifyChar_eq]

/-- `binify` writes the bits of the octets, the most significant first, behind as many zeros as are needed for `size` characters. -/
theorem C68_binify (s : Bytes) (size : Nat) : binify s size = List.replicate (size - 8 * s.length) 48 ++ (bitsIn s).map bitChar := by
  simp only [binify, binify_flat, List.length_map, bitsIn_length]
  split
  · rfl
  · rw [Nat.sub_eq_zero_of_le (by omega)]; rfl

theorem unbinifyChars_bits (a b c d e f g h : UInt8) :
    octetBits8 (unbinifyChars [a, b, c, d, e, f, g, h]) = [a, b, c, d, e, f, g, h].map (· == 49) := by
  have key : ∀ a b c d e f g h : Bool, octetBits8 ([a, b, c, d, e, f, g, h].foldl (fun c b => (c <<< 1) + (if b then 1 else 0)) (0 : UInt8))
      = [a, b, c, d, e, f, g, h] := by decide +kernel
  have := key (a == 49) (b == 49) (c == 49) (d == 49) (e == 49) (f == 49) (g == 49) (h == 49)
  simpa [unbinifyChars] using this

theorem unbinifyText_bits (s : Bytes) (h : s.length % 8 = 0) : bitsIn (unbinifyText s) = s.map (· == 49) := by
  induction s using unbinifyText.induct with
  | case1 a b c d e f g hh r ih =>
    rw [unbinifyText, bitsIn_cons, unbinifyChars_bits, ih (by simp at h; omega)]
    rfl
  | case2 s hs =>
    match s, hs, h with
    | [], _, _ => rfl
    | a :: b :: c :: d :: e :: f :: g :: hh :: r, hs, _ => exact (hs a b c d e f g hh r rfl).elim

/-- `unbinify` refuses strings that are not whole octets; of any other string it makes the octets whose bits are set where the string has
the character `1`. -/
theorem C68_unbinify (s : Bytes) :
    (s.length % 8 ≠ 0 → unbinifyStr s = .throw) ∧ (s.length % 8 = 0 → ∃ r, unbinifyStr s = .ok r ∧ bitsIn r = s.map (· == 49)) := by
  constructor
  · intro h; simp [unbinifyStr, h]
  · intro h; exact ⟨unbinifyText s, by simp [unbinifyStr, h], unbinifyText_bits s h⟩

/-- `unbinify` undoes `binify`. -/
theorem C68_unbinify_binify (s : Bytes) : unbinifyStr (binify s) = .ok s := by
  have e : binify s = (bitsIn s).map bitChar := by rw [C68_binify]; simp
  obtain ⟨r, hr, hb⟩ := (C68_unbinify (binify s)).2 (by rw [e]; simp [bitsIn_length])
  rw [hr]
  congr 1
  apply bitsIn_inj
  rw [hb, e, List.map_map]
  have : (fun x : UInt8 => x == 49) ∘ bitChar = id := by funext b; cases b <;> rfl
  rw [this, List.map_id]

/-- `binify` undoes `unbinify` exactly on strings of the characters `0` and `1` … -/
theorem C68_binify_unbinify (s r : Bytes) (h : unbinifyStr s = .ok r) : binify r = s ↔ ∀ c ∈ s, c = 48 ∨ c = 49 := by
  have hl : s.length % 8 = 0 := by
    by_contra hc; rw [(C68_unbinify s).1 hc] at h; cases h
  obtain ⟨r', hr', hb⟩ := (C68_unbinify s).2 hl
  obtain rfl : r' = r := by rw [hr'] at h; exact Out.ok.inj h
  have e : binify r' = s.map fun c => bitChar (c == 49) := by rw [C68_binify, hb]; simp [Function.comp_def]
  rw [e]
  constructor
  · intro h c hc
    rw [← h] at hc
    obtain ⟨x, -, rfl⟩ := List.mem_map.mp hc
    unfold bitChar; split <;> simp
  · intro h
    conv_rhs => rw [← List.map_id s]
    apply List.map_congr_left
    intro c hc
    rcases h c hc with rfl | rfl <;> rfl

/-- … because every other character passes for a `0`, without an error. -/
theorem C68_unbinify_fails : unbinifyStr (ascii "00000020") = .ok [0] ∧ unbinifyStr (ascii "no error") = .ok [0] := by decide +kernel

theorem nibble_hex (caps : Bool) (c : UInt8) (r : Bytes) :
    bintohexLoop caps ((octetBits8 c).map bitChar ++ r) = hexlifyChar c caps ++ bintohexLoop caps r := by
  have key : ∀ caps : Bool, ∀ c : Fin 256, (let l := (octetBits8 (UInt8.ofNat c.val)).map bitChar
      [hexDigit caps (nibbleOf (l.take 4)).toNat, hexDigit caps (nibbleOf (l.drop 4)).toNat] = hexlifyChar (UInt8.ofNat c.val) caps) := by
    decide +kernel
  have := key caps ⟨c.toNat, c.toNat_lt⟩
  simp only [UInt8.ofNat_toNat, octetBits8, List.map_cons, List.map_nil, List.take_succ_cons, List.take_zero, List.drop_succ_cons, List.drop_zero] at this
  rw [← this]
  simp [octetBits8, bintohexLoop]

/-- `bintohex` of the bits of an octet string is its hex form; sizes that are not whole digits are refused. -/
theorem C68_bintohex (s : Bytes) (caps : Bool) : bintohex (binify s) caps = .ok (hexlify s caps) := by
  have e : binify s = (bitsIn s).map bitChar := by rw [C68_binify]; simp
  have : ∀ s : Bytes, bintohexLoop caps ((bitsIn s).map bitChar) = hexlify s caps := by
    intro s
    induction s with
    | nil => rfl
    | cons c s ih => rw [bitsIn_cons, List.map_append, nibble_hex, ih]; rfl
  rw [bintohex, if_neg (by rw [e]; simp [bitsIn_length]; omega), e, this]

theorem C68_bintohex_size (s : Bytes) (caps : Bool) (h : s.length % 4 ≠ 0) : bintohex s caps = .throw := by simp [bintohex, h]

/-! ## The order of octets -/

theorem littleEndLoop_append (s : Nat) (hs : 0 < s) : ∀ (f : Nat) (rest t : Bytes), rest.length ≤ f →
    littleEndLoop s f rest t = littleEndLoop s f rest [] ++ t := by
  intro f
  induction f with
  | zero => intro rest t h; simp [littleEndLoop]
  | succ f ih =>
    intro rest t h
    simp only [littleEndLoop]
    split
    · rfl
    · rename_i hr
      have hl : (rest.drop s).length ≤ f := by
        have : rest.length ≠ 0 := by simpa using hr
        simp; omega
      rw [ih _ (rest.take s ++ t) hl, ih _ (rest.take s ++ []) hl]; simp

/-- What the loop does to pieces of `s` characters. -/
theorem littleEndLoop_map (s : Nat) (hs : 0 < s) (enc : UInt8 → Bytes) (he : ∀ c, (enc c).length = s) (l : Bytes) :
    ∀ f, (l.flatMap enc).length ≤ f → littleEndLoop s f (l.flatMap enc) [] = l.reverse.flatMap enc := by
  induction l with
  | nil => intro f _; cases f <;> simp [littleEndLoop]
  | cons c l ih =>
    intro f hf
    have hc := he c
    cases f with
    | zero => simp [hc] at hf; omega
    | succ f =>
      have hd : ((c :: l).flatMap enc).drop s = l.flatMap enc := by rw [List.flatMap_cons, ← hc, List.drop_left]
      have ht : ((c :: l).flatMap enc).take s = enc c := by rw [List.flatMap_cons, ← hc, List.take_left]
      have hlen : (l.flatMap enc).length ≤ f := by simp [hc] at hf ⊢; omega
      have hne : (c :: l).flatMap enc ≠ [] := by
        intro h; have := congrArg List.length h; simp [hc] at this; omega
      rw [littleEndLoop, if_neg hne, hd, ht, littleEndLoop_append s hs _ _ _ hlen, ih f hlen]
      simp

/-- `little_end` turns the order of the octets round, whether they are written as octets, in hex or in bits; other bases are refused. -/
theorem C68_little_end (s : Bytes) (caps : Bool) :
    littleEnd s 256 = .ok s.reverse ∧ littleEnd (hexlify s caps) 16 = .ok (hexlify s.reverse caps) ∧
      littleEnd (binify s) 2 = .ok (binify s.reverse) := by
  refine ⟨?_, ?_, ?_⟩
  · have := littleEndLoop_map 1 (by omega) (fun c => [c]) (fun _ => rfl) s s.length (by simp)
    have hid : ∀ l : Bytes, (l.flatMap fun c => [c]) = l := by intro l; simp
    rw [hid, hid] at this
    simp [littleEnd, this]
  · have := littleEndLoop_map 2 (by omega) (fun c => hexlifyChar c caps) (fun c => by simp [hexlifyChar, makehex]) s (hexlify s caps).length (Nat.le_refl _)
    simp only [littleEnd]
    rw [if_pos (by decide)]
    exact congrArg Out.ok this
  · have e : ∀ s : Bytes, binify s = s.flatMap fun c => binifyChar c 8 := by intro s; simp [binify]
    have := littleEndLoop_map 8 (by omega) (fun c => binifyChar c 8) (fun c => by simp [binifyChar]) s (binify s).length (by rw [e])
    simp only [littleEnd]
    rw [if_pos (by decide), e s, e s.reverse]
    rw [← e s]
    rw [e s] at this ⊢
    exact congrArg Out.ok this

theorem C68_little_end_base (s : Bytes) (base : Nat) : littleEnd s base = .throw ↔ base ≠ 2 ∧ base ≠ 16 ∧ base ≠ 256 := by
  have : (base == 2).toNat = (if base = 2 then 1 else 0) ∧ (base == 16).toNat = (if base = 16 then 1 else 0) ∧
      (base == 256).toNat = (if base = 256 then 1 else 0) := by
    refine ⟨?_, ?_, ?_⟩ <;> split <;> simp_all
  simp only [littleEnd, this.1, this.2.1, this.2.2]
  constructor
  · intro h
    refine ⟨?_, ?_, ?_⟩ <;> rintro rfl <;> simp at h
  · rintro ⟨h1, h2, h3⟩
    simp [h1, h2, h3]

/-- A hex string with an odd number of digits is not turned back by a second call. -/
theorem C68_little_end_odd_fails : littleEnd (ascii "abc") = .ok (ascii "cab") ∧ littleEnd (ascii "cab") = .ok (ascii "bca") := by decide +kernel

/-! ## Rotation -/

theorem octetBits_or (a b : UInt8) : octetBits8 (a ||| b) = List.zipWith (· || ·) (octetBits8 a) (octetBits8 b) := by
  simp [octetBits8, Nat.testBit_or]

theorem octetBits_shl (p : Fin 8) (a : UInt8) : octetBits8 (a <<< UInt8.ofNat p.val) = (octetBits8 a).drop p.val ++ List.replicate p.val false :=
  octet_all (P := fun a => ∀ p : Fin 8, octetBits8 (a <<< UInt8.ofNat p.val) = (octetBits8 a).drop p.val ++ List.replicate p.val false)
    (by decide +kernel) a p

theorem octetBits_shr (p : Fin 8) (hp : p ≠ 0) (b : UInt8) : octetBits8 ((b >>> (8 - UInt8.ofNat p.val)) &&& ((1 <<< UInt8.ofNat p.val) - 1)) =
    List.replicate (8 - p.val) false ++ (octetBits8 b).take p.val :=
  octet_all (P := fun b => ∀ p : Fin 8, p ≠ 0 → octetBits8 ((b >>> (8 - UInt8.ofNat p.val)) &&& ((1 <<< UInt8.ofNat p.val) - 1)) =
    List.replicate (8 - p.val) false ++ (octetBits8 b).take p.val) (by decide +kernel) b p hp

theorem zip_or {x y : List Bool} {n m : Nat} (hx : x.length = n) (hy : y.length = m) :
    List.zipWith (· || ·) (x ++ List.replicate m false) (List.replicate n false ++ y) = x ++ y := by
  rw [List.zipWith_append (by simpa using hx)]
  congr 1
  · subst hx
    induction x with
    | nil => rfl
    | cons a x ih => simp [List.replicate_succ, ih]
  · subst hy
    induction y with
    | nil => rfl
    | cons a x ih => simp [List.replicate_succ, ih]

theorem octetBits_join (p : Fin 8) (hp : p ≠ 0) (a b : UInt8) :
    octetBits8 ((a <<< UInt8.ofNat p.val) ||| ((b >>> (8 - UInt8.ofNat p.val)) &&& ((1 <<< UInt8.ofNat p.val) - 1))) =
      (octetBits8 a).drop p.val ++ (octetBits8 b).take p.val := by
  rw [octetBits_or, octetBits_shl, octetBits_shr p hp, zip_or (by simp [octetBits8]) (by simp [octetBits8])]

theorem octetBits_length (a : UInt8) : (octetBits8 a).length = 8 := rfl

theorem rolLoop_bits (p : Fin 8) (hp : p ≠ 0) (c : UInt8) (l : Bytes) (h : l ≠ []) :
    bitsIn (rolLoop (UInt8.ofNat p.val) (8 - UInt8.ofNat p.val) ((c >>> (8 - UInt8.ofNat p.val)) &&& ((1 <<< UInt8.ofNat p.val) - 1)) l) =
      (bitsIn l).drop p.val ++ (octetBits8 c).take p.val := by
  have h8 : p.val < 8 := p.isLt
  induction l with
  | nil => exact absurd rfl h
  | cons a l ih =>
    cases l with
    | nil => simp only [rolLoop, bitsIn_cons, octetBits_join p hp]; simp [bitsIn]
    | cons b l =>
      rw [rolLoop, bitsIn_cons, octetBits_join p hp, ih (by simp), bitsIn_cons a, List.drop_append_of_le_length (by rw [octetBits_length]; omega),
        bitsIn_cons b, List.drop_append_of_le_length (by rw [octetBits_length]; omega)]
      simp only [List.append_assoc]
      congr 1
      rw [← List.append_assoc, List.take_append_drop]

theorem bitsIn_rotate (l : Bytes) (k : Nat) (h : k ≤ l.length) : bitsIn (l.rotate k) = (bitsIn l).rotate (8 * k) := by
  rw [List.rotate_eq_drop_append_take h, List.rotate_eq_drop_append_take (by rw [bitsIn_length]; omega), bitsIn_append]
  have hs : bitsIn l = bitsIn (l.take k) ++ bitsIn (l.drop k) := by rw [← bitsIn_append, List.take_append_drop]
  have hl : (bitsIn (l.take k)).length = 8 * k := by rw [bitsIn_length]; simp [h]
  rw [hs, ← hl, List.drop_left, List.take_left]

/-- `ROL` rotates the bits of the string to the left, up to one turn (and seven bits). -/
theorem C68_rotate (s : Bytes) (bits : Nat) (h : bits / 8 ≤ s.length) : ∃ r, rolStr s bits = .ok r ∧ bitsIn r = (bitsIn s).rotate bits := by
  by_cases hs : s = []
  · subst hs; exact ⟨[], by simp [rolStr], by simp [bitsIn]⟩
  have hlen : s.length ≠ 0 := by simpa using hs
  have hout : ((s ++ s).drop (bits / 8)).take s.length = s.rotate (bits / 8) := by
    rw [List.rotate_eq_drop_append_take h, List.drop_append_of_le_length h, List.take_append]
    congr 1
    · exact List.take_of_length_le (by simp)
    · congr 1; simp; omega
  have hsub : substr (s ++ s) (bits / 8) s.length = .ok (s.rotate (bits / 8)) := by
    rw [substr, if_neg (by simp; omega), hout]
  have hrot := bitsIn_rotate s (bits / 8) h
  by_cases hm : bits % 8 = 0
  · refine ⟨s.rotate (bits / 8), by simp [rolStr, hs, hsub, hm], ?_⟩
    rw [hrot, show 8 * (bits / 8) = bits by omega]
  · have hp : (⟨bits % 8, by omega⟩ : Fin 8) ≠ 0 := by simpa [Fin.ext_iff] using hm
    cases hr : s.rotate (bits / 8) with
    | nil => simp at hr; exact absurd hr hs
    | cons a t =>
      have := rolLoop_bits ⟨bits % 8, by omega⟩ hp a (a :: t) (by simp)
      simp only at this
      refine ⟨_, by simp only [rolStr, hs, hsub, hm, hr, if_false, Out.ok_bind, Out.pure_eq]; rfl, ?_⟩
      rw [this, ← hr, hrot]
      have e : octetBits8 a = (bitsIn (s.rotate (bits / 8))).take 8 := by rw [hr, bitsIn_cons]; rfl
      have hbl : ((bitsIn s).rotate (8 * (bits / 8))).length = 8 * s.length := by rw [List.length_rotate, bitsIn_length]
      rw [e, List.take_take, Nat.min_eq_left (show bits % 8 ≤ 8 by omega), hrot,
        ← List.rotate_eq_drop_append_take (by rw [hbl]; omega), List.rotate_rotate]
      congr 1; omega

/-- Behind that, octets are lost, the behaviour is undefined, or the call throws. -/
theorem C68_rotate_fails (s : Bytes) (hs : s ≠ []) (bits : Nat) :
    (s.length < bits / 8 → ∀ r, rolStr s bits = .ok r → r.length < s.length) ∧
    (bits / 8 = 2 * s.length → bits % 8 ≠ 0 → rolStr s bits = .ub) ∧ (2 * s.length < bits / 8 → rolStr s bits = .throw) := by
  have hlen : s.length ≠ 0 := by simpa using hs
  have hrl : ∀ p q t l, (rolLoop p q t l).length = l.length := by
    intro p q t l
    induction l with
    | nil => rfl
    | cons a l ih => cases l with
      | nil => rfl
      | cons b l => simp only [rolLoop, List.length_cons, ih]
  refine ⟨?_, ?_, ?_⟩
  · intro h r hr
    simp only [rolStr, hs, if_false] at hr
    obtain ⟨out, ho, hr⟩ := Out.bind_eq_ok.mp hr
    have hol : out.length < s.length := by
      simp only [substr] at ho
      split at ho
      · cases ho
      · obtain rfl := Out.ok.inj ho
        simp; omega
    split at hr
    · obtain rfl := Out.ok.inj hr; exact hol
    · cases out with
      | nil => cases hr
      | cons a t => obtain rfl := Out.ok.inj hr; rw [hrl]; exact hol
  · intro h hm
    have : substr (s ++ s) (bits / 8) s.length = .ok [] := by
      rw [substr, if_neg (by simp; omega), h]; simp [two_mul]
    simp [rolStr, hs, this, hm]
  · intro h
    have : substr (s ++ s) (bits / 8) s.length = .throw := by
      rw [substr, if_pos (by simp; omega)]
    simp [rolStr, hs, this]

/-! ## Numbers from texts -/

theorem valueOf_append_one (base : Nat) (ds : List Nat) (d : Nat) : valueOf base (ds ++ [d]) = valueOf base ds * base + d := by
  induction ds with
  | nil => simp [valueOf]
  | cons e ds ih => simp only [List.cons_append, valueOf, ih, List.length_append, List.length_singleton]; ring

theorem valueOf_foldl (base : Nat) (ds : List Nat) (a : Nat) : ds.foldl (fun v d => v * base + d) a = a * base ^ ds.length + valueOf base ds := by
  induction ds generalizing a with
  | nil => simp [valueOf]
  | cons e ds ih => simp only [List.foldl_cons, ih, valueOf, List.length_cons]; ring

/-- In base 2, `toint` takes the characters `0` and `1` at the beginning, modulo 2^64. -/
theorem C68_toint_bits (bs : List Bool) (rest : Bytes) (h : rest.head? ≠ some 48 ∧ rest.head? ≠ some 49) :
    toint (bs.map bitChar ++ rest) 2 = .ok (valueOf 2 (bs.map Bool.toNat) % 2 ^ 64) := by
  have key : ∀ (bs : List Bool) (v : Nat), toint2 (v % 2 ^ 64) (bs.map bitChar ++ rest) = (v * 2 ^ bs.length + valueOf 2 (bs.map Bool.toNat)) % 2 ^ 64 := by
    intro bs
    induction bs with
    | nil =>
      intro v
      cases rest with
      | nil => simp [toint2, valueOf]
      | cons c r => simp at h; simp [toint2, valueOf, h]
    | cons b bs ih =>
      intro v
      have hb : ¬ (bitChar b ≠ 48 ∧ bitChar b ≠ 49) := by cases b <;> decide
      have hv : (bitChar b).toNat - 48 = b.toNat := by cases b <;> rfl
      rw [List.map_cons, List.cons_append, toint2, if_neg hb, hv]
      have : (v % 2 ^ 64 * 2 + b.toNat) % 2 ^ 64 = (v * 2 + b.toNat) % 2 ^ 64 := by omega
      rw [this, ih]
      congr 1
      simp only [List.map_cons, valueOf, List.length_cons, List.length_map]; ring
  have := key bs 0
  simp only [toint, if_true]
  simpa using this

/-- In base 256, `toint` is the number the octets stand for, modulo 2^64. -/
theorem C68_toint_octets (s : Bytes) : toint s 256 = .ok (num s % 2 ^ 64) := by
  have key : ∀ (s : Bytes) (v : Nat), tointOctets (v % 2 ^ 64) s = (v * 256 ^ s.length + num s) % 2 ^ 64 := by
    intro s
    induction s with
    | nil => intro v; simp [tointOctets]
    | cons c s ih =>
      intro v
      have hc := c.toNat_lt
      have e : (v % 2 ^ 64 * 256 % 2 ^ 64) ||| c.toNat = (v * 256 + c.toNat) % 2 ^ 64 := by
        have h1 : v % 2 ^ 64 * 256 % 2 ^ 64 = (v % 2 ^ 56) <<< 8 := by rw [Nat.shiftLeft_eq]; omega
        rw [h1, ← Nat.shiftLeft_add_eq_or_of_lt (by omega : c.toNat < 2 ^ 8), Nat.shiftLeft_eq]; omega
      rw [tointOctets, e, ih, num_cons, List.length_cons]
      congr 1; ring
  have := key s 0
  simp only [toint]
  simpa using this

theorem streamDigit_eq {base : Nat} (hb : base ≤ 16) (c : UInt8) : streamDigit base c = digitOf base c :=
  octet_all (P := fun c => ∀ b : Fin 17, streamDigit b.val c = digitOf b.val c) (by decide +kernel) c ⟨base, by omega⟩

theorem streamDigits_all {base : Nat} (hb : base ≤ 16) : ∀ (s : Bytes) (ds : List Nat) (a : Nat), s.map (digitOf base) = ds.map some →
    streamDigits base a s = a * base ^ s.length + valueOf base ds := by
  intro s
  induction s with
  | nil => intro ds a h; have : ds = [] := by simpa using h.symm
           subst this; simp [streamDigits, valueOf]
  | cons c s ih =>
    intro ds a h
    cases ds with
    | nil => simp at h
    | cons d ds =>
      simp only [List.map_cons, List.cons.injEq] at h
      have hl : s.length = ds.length := by simpa using congrArg List.length h.2
      rw [streamDigits, streamDigit_eq hb, h.1]
      simp only
      rw [ih ds _ h.2, valueOf, List.length_cons, ← hl]; ring

theorem digit_facts {base : Nat} (hb : base ≤ 16) {c : UInt8} {d : Nat} (h : digitOf base c = some d) :
    Cli.Module.isSpace c = false ∧ c ≠ 45 ∧ c ≠ 43 ∧ c ≠ 120 ∧ c ≠ 88 := by
  rw [← streamDigit_eq hb] at h
  have key : ∀ c : UInt8, hexValue c ≠ none → Cli.Module.isSpace c = false ∧ c ≠ 45 ∧ c ≠ 43 ∧ c ≠ 120 ∧ c ≠ 88 :=
    fun c => octet_all (P := fun c => hexValue c ≠ none → Cli.Module.isSpace c = false ∧ c ≠ 45 ∧ c ≠ 43 ∧ c ≠ 120 ∧ c ≠ 88) (by decide +kernel) c
  apply key
  intro hn
  simp [streamDigit, hn] at h

theorem writes_cons {base : Nat} {s : Bytes} {n : Nat} (h : Writes base s n) :
    ∃ c t d ds, s = c :: t ∧ digitOf base c = some d ∧ t.map (digitOf base) = ds.map some ∧ valueOf base (d :: ds) = n := by
  obtain ⟨hne, ds, hd, hv⟩ := h
  cases s with
  | nil => exact absurd rfl hne
  | cons c t =>
    cases ds with
    | nil => simp at hd
    | cons d ds =>
      simp only [List.map_cons, List.cons.injEq] at hd
      exact ⟨c, t, d, ds, rfl, hd.1, hd.2, hv⟩

theorem streamNumber_writes {base : Nat} (hb : base ≤ 16) {s : Bytes} {n : Nat} (h : Writes base s n) (sp : Bytes)
    (hsp : ∀ c ∈ sp, Cli.Module.isSpace c = true) : streamNumber base (sp ++ s) = min n (2 ^ 64 - 1) ∧
      streamNumber base (sp ++ 45 :: s) = if n < 2 ^ 64 then (2 ^ 64 - n) % 2 ^ 64 else 2 ^ 64 - 1 := by
  obtain ⟨c, t, d, ds, rfl, hc, ht, hv⟩ := writes_cons h
  obtain ⟨f1, f2, f3, -, -⟩ := digit_facts hb hc
  have hall : (c :: t).map (digitOf base) = (d :: ds).map some := by simp [hc, ht]
  have hx : ¬ (base = 16 ∧ (c :: t).head? = some 48 ∧ ((c :: t)[1]? = some 120 ∨ (c :: t)[1]? = some 88)) := by
    rintro ⟨-, -, h⟩
    cases t with
    | nil => simp at h
    | cons x t =>
      cases ds with
      | nil => simp at ht
      | cons e ds =>
        simp only [List.map_cons, List.cons.injEq] at ht
        obtain ⟨-, -, -, g1, g2⟩ := digit_facts hb ht.1
        simp at h
        rcases h with h | h
        · exact g1 h
        · exact g2 h
  have hn : streamDigits base 0 (c :: t) = n := by
    rw [streamDigits_all hb _ _ 0 hall, ← hv]; simp
  have hdw : ∀ x (r : Bytes), Cli.Module.isSpace x = false → (sp ++ x :: r).dropWhile Cli.Module.isSpace = x :: r := by
    intro x r hxs
    rw [List.dropWhile_append_of_pos hsp, List.dropWhile_cons_of_neg (by simp [hxs])]
  constructor
  · simp only [streamNumber, hdw c t f1]
    have h1 : ¬ ((c :: t).head? = some 45 ∨ (c :: t).head? = some 43) := by simp [f2, f3]
    have h2 : ¬ ((c :: t).head? = some 45) := by simp [f2]
    rw [if_neg h1, if_neg hx, hn, if_neg h2]
    split <;> omega
  · simp only [streamNumber, hdw 45 (c :: t) (by decide)]
    rw [if_pos (show (45 :: c :: t : Bytes).head? = some 45 ∨ (45 :: c :: t : Bytes).head? = some 43 from Or.inl rfl),
      if_pos (show (45 :: c :: t : Bytes).head? = some 45 from rfl), List.drop_succ_cons, List.drop_zero, if_neg hx, hn]

/-- In base 8, 10 and 16, `toint` is the number written, and 2^64 - 1 for all greater numbers. -/
theorem C68_toint (base : Nat) (hb : base = 8 ∨ base = 10 ∨ base = 16) (s : Bytes) (n : Nat) (h : Writes base s n) :
    toint s base = .ok (min n (2 ^ 64 - 1)) := by
  have := fun hb => (streamNumber_writes (base := base) hb h [] (by simp)).1
  rcases hb with rfl | rfl | rfl <;> simp only [List.nil_append] at this <;> simp only [toint] <;> rw [this (by omega)] <;> rfl

/-- Every other base is refused. -/
theorem C68_toint_base (s : Bytes) (base : Int) : toint s base = .throw ↔ base ≠ 2 ∧ base ≠ 8 ∧ base ≠ 10 ∧ base ≠ 16 ∧ base ≠ 256 := by
  simp only [toint]
  constructor
  · intro h
    refine ⟨?_, ?_, ?_, ?_, ?_⟩ <;> rintro rfl <;> simp at h
  · rintro ⟨h1, h2, h3, h4, h5⟩
    simp [h1, h2, h3, h4, h5]

/-- Texts that are no numbers are zero, and a negative number is a great one; neither is an error. -/
theorem C68_toint_fails : toint (ascii "ten") = .ok 0 ∧ toint (ascii "-1") = .ok (2 ^ 64 - 1) ∧ toint (ascii "12,000") = .ok 12 ∧
    toint (ascii "0b11") 2 = .ok 0 := by decide +kernel

/-! ## Big numbers and their texts -/

theorem mpz_foldl {base : Nat} (hb : base ≤ 16) : ∀ (s : Bytes) (a n : Nat), s.foldl (mpzStep base) (.ok a) = .ok n ↔
    ∃ ds, s.map (digitOf base) = ds.map some ∧ a * base ^ s.length + valueOf base ds = n := by
  intro s
  induction s with
  | nil =>
    intro a n
    constructor
    · intro h; exact ⟨[], rfl, by simpa [valueOf] using h⟩
    · rintro ⟨ds, hd, hv⟩
      have : ds = [] := by simpa using hd.symm
      subst this; simpa [valueOf] using hv
  | cons c s ih =>
    intro a n
    rw [List.foldl_cons]
    have hst : mpzStep base (.ok a) c = match digitOf base c with
      | none => .throw
      | some d => .ok (a * base + d) := by simp only [mpzStep, Out.ok_bind, streamDigit_eq hb]; cases digitOf base c <;> rfl
    rw [hst]
    cases hd : digitOf base c with
    | none =>
      have hthr : ∀ l : Bytes, l.foldl (mpzStep base) .throw = .throw := by
        intro l; induction l with
        | nil => rfl
        | cons x l ih => simpa [mpzStep] using ih
      simp only [hthr]
      constructor
      · intro h; cases h
      · rintro ⟨ds, hd', -⟩
        cases ds with
        | nil => simp at hd'
        | cons => simp [hd] at hd'
    | some d =>
      simp only
      rw [ih]
      constructor
      · rintro ⟨ds, h1, h2⟩
        have hl : s.length = ds.length := by simpa using congrArg List.length h1
        refine ⟨d :: ds, by simp [hd, h1], ?_⟩
        rw [← h2, valueOf, List.length_cons, hl]; ring
      · rintro ⟨ds, h1, h2⟩
        cases ds with
        | nil => simp at h1
        | cons e ds =>
          simp only [List.map_cons, List.cons.injEq] at h1
          have hl : s.length = ds.length := by simpa using congrArg List.length h1.2
          obtain rfl : d = e := by rw [hd] at h1; simpa using h1.1
          refine ⟨ds, h1.2, ?_⟩
          rw [← h2, valueOf, List.length_cons, hl]; ring

theorem mpzOfStr_iff {base : Nat} (hb : base ≤ 16) (s : Bytes) (n : Nat) : mpzOfStr base s = .ok n ↔ Writes base s n := by
  by_cases hs : s = []
  · subst hs; simp [mpzOfStr, Writes]
  · simp only [mpzOfStr, hs, if_false, mpz_foldl hb, Writes, ne_eq, not_false_eq_true, true_and]
    simp

theorem digitOf_hexDigit (base : Nat) (hb : base ≤ 16) (d : Nat) (hd : d < base) : digitOf base (hexDigit false d) = some d := by
  have key : ∀ b : Fin 17, ∀ d : Fin 16, d.val < b.val → digitOf b.val (hexDigit false d.val) = some d.val := by decide +kernel
  exact key ⟨base, by omega⟩ ⟨d, by omega⟩ hd

theorem valueOf_reverse (base : Nat) (ds : List Nat) : valueOf base ds.reverse = Nat.ofDigits base ds := by
  induction ds with
  | nil => rfl
  | cons d ds ih => rw [List.reverse_cons, valueOf_append_one, ih, Nat.ofDigits_cons]; ring

theorem getStr_writes {base : Nat} (h2 : 2 ≤ base) (hb : base ≤ 16) (a : Nat) : Writes base (getStr base a) a := by
  by_cases ha : a = 0
  · subst ha
    refine ⟨by simp [getStr], [0], ?_, by simp [valueOf]⟩
    simp [getStr, digitOf, show 0 < base by omega]
  · refine ⟨?_, (Nat.digits base a).reverse, ?_, ?_⟩
    · simp [getStr, ha, Nat.digits_eq_nil_iff_eq_zero]
    · simp only [getStr, ha, if_false, List.map_map]
      apply List.map_congr_left
      intro d hd
      rw [List.mem_reverse] at hd
      exact digitOf_hexDigit base hb d (Nat.digits_lt_base (by omega) hd)
    · rw [valueOf_reverse, Nat.ofDigits_digits]

/-- `dectompi` and `bintompi` take exactly the texts of numbers, and give the number written. -/
theorem C68_from_text (s : Bytes) (n : Nat) : (dectompi s = .ok n ↔ Writes 10 s n) ∧ (bintompi s = .ok n ↔ Writes 2 s n) ∧
    (hextompi s = .ok n ↔ Writes 16 s n) := by
  refine ⟨mpzOfStr_iff (by omega) s n, mpzOfStr_iff (by omega) s n, ?_⟩
  rw [← mpzOfStr_iff (by omega)]
  have : hexStep = mpzStep 16 := by
    funext acc c
    simp only [hexStep, mpzStep]
    congr 1; funext a
    have : streamDigit 16 c = hexValue c :=
      octet_all (P := fun c => streamDigit 16 c = hexValue c) (by decide +kernel) c
    rw [this]; cases hexValue c <;> rfl
  simp only [hextompi, mpzOfStr, this]

theorem getStr_head {base : Nat} (a : Nat) (ha : a ≠ 0) (h2 : 2 ≤ base) (hb : base ≤ 16) : (getStr base a).head? ≠ some 48 := by
  have hne : Nat.digits base a ≠ [] := by simpa [Nat.digits_eq_nil_iff_eq_zero] using ha
  have hl := Nat.getLast_digit_ne_zero base ha
  have hlt := Nat.digits_lt_base (by omega) (List.getLast_mem hne)
  simp only [getStr, ha, if_false, List.head?_map, List.head?_reverse, List.getLast?_eq_some_getLast hne, Option.map_some]
  intro h
  have key : ∀ d : Fin 16, d.val ≠ 0 → hexDigit false d.val ≠ 48 := by decide +kernel
  exact key ⟨_, by omega⟩ hl (Option.some.inj h)

/-- The texts of a number: digits that stand for it, without leading zeros, which are read back; `mpitobin` has as many as `bitsize` says. -/
theorem C68_to_text (a : Nat) : (Writes 10 (mpitodec a) a ∧ dectompi (mpitodec a) = .ok a ∧ (a ≠ 0 → (mpitodec a).head? ≠ some 48)) ∧
    (Writes 2 (mpitobin a) a ∧ bintompi (mpitobin a) = .ok a ∧ (a ≠ 0 → (mpitobin a).head? ≠ some 48) ∧ (mpitobin a).length = bitsize a) := by
  have h10 := getStr_writes (base := 10) (by omega) (by omega) a
  have h2 := getStr_writes (base := 2) (by omega) (by omega) a
  refine ⟨⟨h10, (C68_from_text _ _).1.mpr h10, fun ha => getStr_head a ha (by omega) (by omega)⟩, h2, (C68_from_text _ _).2.1.mpr h2,
    fun ha => getStr_head a ha (by omega) (by omega), ?_⟩
  by_cases ha : a = 0
  · subst ha; rfl
  · simp only [mpitobin, getStr, ha, if_false, List.length_map, List.length_reverse, bitsize]
    rw [Nat.length_digits 2 a (by omega) ha, Nat.log2_eq_log_two]

theorem makehex_getStr (a : Nat) : getStr16 a = getStr 16 a := by
  induction a using Nat.strongRecOn with
  | _ a ih =>
    by_cases h : a < 16
    · have key : ∀ a : Fin 16, getStr16 a.val = getStr 16 a.val := by decide +kernel
      exact key ⟨a, h⟩
    · have hq : a / 16 ≠ 0 := by omega
      have hl : a.log2 = (a / 16).log2 + 4 := by
        rw [Nat.log2_eq_log_two, Nat.log2_eq_log_two, show a / 16 = a / 2 / 2 / 2 / 2 by omega]
        simp only [Nat.log_div_base]
        have : 4 ≤ Nat.log 2 a := by rw [Nat.le_log_iff_pow_le (by omega) (by omega)]; omega
        omega
      have h1 : getStr16 a = getStr16 (a / 16) ++ [hexDigit false (a % 16)] := by
        simp only [getStr16]
        rw [hl, show ((a / 16).log2 + 4) / 4 + 1 = ((a / 16).log2 / 4 + 1) + 1 by omega, makehex]
      have h2 : getStr 16 a = getStr 16 (a / 16) ++ [hexDigit false (a % 16)] := by
        simp only [getStr, hq, if_false, show a ≠ 0 by omega]
        rw [Nat.digits_def' (by omega) (by omega)]
        simp
      rw [h1, h2, ih _ (by omega)]

/-- `mpitohex` is the number in base 16, with a zero in front if that makes whole octets. -/
theorem C68_hex_text (a : Nat) : Writes 16 (mpitohex a) a ∧ (mpitohex a).length % 2 = 0 ∧ hextompi (mpitohex a) = .ok a := by
  have h := getStr_writes (base := 16) (by omega) (by omega) a
  have hw : Writes 16 (mpitohex a) a := by
    simp only [mpitohex, makehex_getStr]
    split
    · obtain ⟨_, ds, hd, hv⟩ := h
      exact ⟨by simp, 0 :: ds, by rw [List.map_cons, List.map_cons, hd]; rfl, by simpa [valueOf] using hv⟩
    · exact h
  refine ⟨hw, ?_, (C68_from_text _ _).2.2.mpr hw⟩
  simp only [mpitohex]
  split
  · simp only [List.length_cons]; omega
  · omega

/-- The low 64 bits, the exchange and the greatest common divisor. -/
theorem C68_numbers (a b : Nat) : (mpitoulong a = a ↔ a < 2 ^ 64) ∧ mpitoulong a = num (be 8 a) ∧ mpiswap a b = (b, a) ∧
    (mpigcd a b ∣ a ∧ mpigcd a b ∣ b ∧ ∀ d, d ∣ a → d ∣ b → d ∣ mpigcd a b) := by
  refine ⟨?_, ?_, rfl, Nat.gcd_dvd_left a b, Nat.gcd_dvd_right a b, fun d => Nat.dvd_gcd⟩
  · simp only [mpitoulong]; constructor
    · intro h; rw [← h]; exact Nat.mod_lt _ (by decide)
    · exact Nat.mod_eq_of_lt
  · rw [num_be]; rfl

/-! ## White space -/

theorem mem_takeWhile_ws {ws : UInt8 → Bool} {c : UInt8} {l : Bytes} (h : c ∈ l.takeWhile ws) : ws c = true := by
  induction l with
  | nil => cases h
  | cons d l ih =>
    rw [List.takeWhile_cons] at h
    split at h
    · rename_i hd
      rcases List.mem_cons.mp h with rfl | h
      · exact hd
      · exact ih h
    · cases h

theorem findFirstNot_some {ws : UInt8 → Bool} {s : Bytes} {k : Nat} (h : findFirstNot ws s = some k) :
    k < s.length ∧ s.dropWhile ws = s.drop k := by
  induction s generalizing k with
  | nil => simp [findFirstNot] at h
  | cons c s ih =>
    simp only [findFirstNot] at h
    split at h
    · rename_i hc
      obtain ⟨j, hj, rfl⟩ := Option.map_eq_some_iff.mp h
      obtain ⟨h1, h2⟩ := ih hj
      refine ⟨by simp; omega, ?_⟩
      rw [List.dropWhile_cons_of_pos hc, h2, List.drop_succ_cons]
    · rename_i hc
      obtain rfl := Option.some.inj h
      exact ⟨by simp, by rw [List.dropWhile_cons_of_neg hc]; rfl⟩

theorem findFirstNot_none {ws : UInt8 → Bool} {s : Bytes} (h : findFirstNot ws s = none) : s.dropWhile ws = [] := by
  induction s with
  | nil => rfl
  | cons c s ih =>
    simp only [findFirstNot] at h
    split at h
    · rename_i hc
      rw [List.dropWhile_cons_of_pos hc]; exact ih (by simpa using h)
    · cases h

theorem findFirstNot_isSome {ws : UInt8 → Bool} {s : Bytes} {c : UInt8} (hc : c ∈ s) (hw : ws c = false) : findFirstNot ws s ≠ none := by
  induction s with
  | nil => cases hc
  | cons d s ih =>
    simp only [findFirstNot]
    split
    · rename_i hd
      rcases List.mem_cons.mp hc with rfl | hc
      · rw [hw] at hd; cases hd
      · simpa using ih hc
    · simp

theorem reverse_dropWhile_some {ws : UInt8 → Bool} {s : Bytes} {k : Nat} (h : findLastNot ws s = some k) :
    k < s.length ∧ (s.reverse.dropWhile ws).reverse = s.take (k + 1) := by
  obtain ⟨j, hj, rfl⟩ := Option.map_eq_some_iff.mp h
  obtain ⟨h1, h2⟩ := findFirstNot_some hj
  simp only [List.length_reverse] at h1
  refine ⟨by omega, ?_⟩
  rw [h2, List.drop_reverse, List.reverse_reverse]
  congr 1; omega

/-- The positions of the code give the string the model of `Verif/Model/Includes.lean` says. -/
theorem trimWhitespaceAt_eq (s : Bytes) (front back : Bool) (ws : UInt8 → Bool) (hl : s.length < 2 ^ 63) :
    trimWhitespaceAt s front back ws = .ok (trimWhitespace s front back ws) := by
  by_cases hs : s = []
  · subst hs; cases front <;> cases back <;> simp [trimWhitespaceAt, trimWhitespace]
  have hlen : s.length ≠ 0 := by simpa using hs
  simp only [trimWhitespaceAt, hs, if_false]
  have tail : ∀ f, f < s.length → (∀ k, findLastNot ws s = some k → f ≤ k ∨ f = 0) → (findLastNot ws s = none → f = 0) →
      substr s f ((subSz (if back then (findLastNot ws s).getD (2 ^ 64 - 1) else s.length) f + 1) % 2 ^ 64) =
        .ok (if back then ((s.reverse.dropWhile ws).reverse).drop f else s.drop f) := by
    intro f hf h1 h2
    rw [substr, if_neg (by omega)]
    congr 1
    cases back with
    | false =>
      simp only [Bool.false_eq_true, if_false]
      apply List.take_of_length_le
      simp only [subSz]
      rw [if_pos (by omega), List.length_drop, Nat.mod_eq_of_lt (by omega)]; omega
    | true =>
      simp only [if_true]
      cases hk : findLastNot ws s with
      | none =>
        have hf0 := h2 hk
        subst hf0
        have : s.reverse.dropWhile ws = [] := findFirstNot_none (by simpa [findLastNot] using hk)
        rw [this]
        simp [subSz]
      | some k =>
        obtain ⟨g1, g2⟩ := reverse_dropWhile_some hk
        have hfk : f ≤ k := by rcases h1 k hk with h | h <;> omega
        rw [g2]
        simp only [Option.getD_some, subSz]
        rw [if_pos hfk, Nat.mod_eq_of_lt (by omega), List.drop_take]
        congr 1; omega
  cases front with
  | false =>
    simp only [Bool.false_eq_true, if_false, trimWhitespace]
    rw [tail 0 (by omega) (fun k _ => Or.inr rfl) (fun _ => rfl)]
    cases back <;> simp
  | true =>
    simp only [if_true, trimWhitespace]
    cases hf : findFirstNot ws s with
    | none =>
      have := findFirstNot_none hf
      simp [this]
    | some f =>
      obtain ⟨h1, h2⟩ := findFirstNot_some hf
      simp only
      have hne : s.drop f ≠ [] := by
        intro h; have := congrArg List.length h; simp at this; omega
      have hfw : ws (s[f]) = false := by
        have hd := List.head_dropWhile_not ws (l := s) (by rw [h2]; exact hne)
        simp only [h2, List.head_drop] at hd
        exact hd
      have hlast : ∀ k, findLastNot ws s = some k → f ≤ k := by
        intro k hk
        obtain ⟨g1, g2⟩ := reverse_dropWhile_some hk
        by_contra hlt
        have hdrop : s.drop (k + 1) <:+ s := List.drop_suffix _ _
        have hall : ∀ c ∈ s.drop (k + 1), ws c = true := by
          have h3 : s.reverse.dropWhile ws = (s.take (k + 1)).reverse := by rw [← g2, List.reverse_reverse]
          have h4 : s.reverse.takeWhile ws ++ s.reverse.dropWhile ws = s.reverse := List.takeWhile_append_dropWhile
          rw [h3] at h4
          have h5 : s.reverse = (s.drop (k + 1)).reverse ++ (s.take (k + 1)).reverse := by rw [← List.reverse_append, List.take_append_drop]
          rw [h5] at h4
          have h6 := List.append_cancel_right h4
          intro c hc
          have : c ∈ s.reverse.takeWhile ws := by rw [h5, h6]; simpa using hc
          exact mem_takeWhile_ws this
        have : s[f] ∈ s.drop (k + 1) := by
          rw [List.mem_iff_getElem]
          exact ⟨f - (k + 1), by simp; omega, by simp [show k + 1 + (f - (k + 1)) = f by omega]⟩
        rw [hall _ this] at hfw; cases hfw
      have hnone : findLastNot ws s ≠ none := by
        simp only [findLastNot, ne_eq, Option.map_eq_none_iff]
        exact findFirstNot_isSome (c := s[f]) (by simp) hfw
      rw [tail f h1 (fun k hk => Or.inl (hlast k hk)) (fun h => absurd h hnone)]
      congr 1
      cases back with
      | false => simp [h2]
      | true =>
        simp only [if_true]
        obtain ⟨k, hk⟩ := Option.ne_none_iff_exists'.mp hnone
        obtain ⟨g1, g2⟩ := reverse_dropWhile_some hk
        have hfk := hlast k hk
        rw [g2, h2]
        -- the end of the shorter string is the end of the whole one
        have h3 : s.reverse.dropWhile ws = (s.take (k + 1)).reverse := by rw [← g2, List.reverse_reverse]
        have hsplit : s.drop f = (s.take (k + 1)).drop f ++ s.drop (k + 1) := by
          conv_lhs => rw [← List.take_append_drop (k + 1) s]
          rw [List.drop_append_of_le_length (by simp; omega)]
        have h4 : s.reverse.takeWhile ws ++ s.reverse.dropWhile ws = s.reverse := List.takeWhile_append_dropWhile
        rw [h3] at h4
        have h5 : s.reverse = (s.drop (k + 1)).reverse ++ (s.take (k + 1)).reverse := by rw [← List.reverse_append, List.take_append_drop]
        rw [h5] at h4
        have h6 := List.append_cancel_right h4
        have hall : ∀ c ∈ (s.drop (k + 1)).reverse, ws c = true := by
          intro c hc
          rw [← h6] at hc
          exact mem_takeWhile_ws hc
        rw [hsplit, List.reverse_append, List.dropWhile_append_of_pos hall]
        have hk1 : ((s.take (k + 1)).drop f).reverse = s[k] :: ((s.take k).drop f).reverse := by
          rw [List.take_succ_eq_append_getElem g1, List.drop_append_of_le_length (by simp; omega)]
          simp
        have hkw : ws s[k] = false := by
          have hne : s.reverse.dropWhile ws ≠ [] := by rw [h3]; simp; omega
          have := List.head_dropWhile_not ws (l := s.reverse) hne
          simp only [h3, List.head_reverse, List.getLast_take] at this
          simpa [List.getElem?_eq_getElem g1] using this
        rw [hk1, List.dropWhile_cons_of_neg (by simp [hkw]), ← hk1, List.reverse_reverse]

/-- `trim_whitespace` takes away white space at both ends, all of it, and nothing else. -/
theorem C68_trim (s : Bytes) (ws : UInt8 → Bool) (hl : s.length < 2 ^ 63) :
    ∃ a r b, trimWhitespaceAt s true true ws = .ok r ∧ s = a ++ r ++ b ∧ (∀ c ∈ a, ws c = true) ∧ (∀ c ∈ b, ws c = true) ∧ Trimmed ws r := by
  rw [trimWhitespaceAt_eq s true true ws hl]
  simp only [trimWhitespace, if_true]
  have h1 : s.takeWhile ws ++ s.dropWhile ws = s := List.takeWhile_append_dropWhile
  have h2 : (s.dropWhile ws).reverse.takeWhile ws ++ (s.dropWhile ws).reverse.dropWhile ws = (s.dropWhile ws).reverse := List.takeWhile_append_dropWhile
  have h3 : s.dropWhile ws = ((s.dropWhile ws).reverse.dropWhile ws).reverse ++ ((s.dropWhile ws).reverse.takeWhile ws).reverse := by
    rw [← List.reverse_append, h2, List.reverse_reverse]
  refine ⟨s.takeWhile ws, _, ((s.dropWhile ws).reverse.takeWhile ws).reverse, rfl, ?_, ?_, ?_, ?_, ?_⟩
  · rw [List.append_assoc, ← h3, h1]
  · exact fun c hc => mem_takeWhile_ws hc
  · exact fun c hc => mem_takeWhile_ws (List.mem_reverse.mp hc)
  · intro c hc
    have hne : ((s.dropWhile ws).reverse.dropWhile ws).reverse ≠ [] := by rintro h; rw [h] at hc; cases hc
    have : (s.dropWhile ws).head? = some c := by
      rw [h3, List.head?_append, hc]; rfl
    have hne2 : s.dropWhile ws ≠ [] := by rintro h; rw [h] at this; cases this
    have hh := List.head_dropWhile_not ws (l := s) hne2
    rw [List.head?_eq_some_head hne2] at this
    rw [Option.some.inj this] at hh; exact hh
  · intro c hc
    rw [List.getLast?_reverse] at hc
    have hne : (s.dropWhile ws).reverse.dropWhile ws ≠ [] := by rintro h; rw [h] at hc; cases hc
    have hh := List.head_dropWhile_not ws hne
    rw [List.head?_eq_some_head hne] at hc
    rw [Option.some.inj hc] at hh; exact hh

/-! ## Padding to whole blocks -/

/-- The size the padding is meant to give: whole blocks, when the block size is a power of two (up to 2^64) or the data is no longer than a block. -/
theorem C68_pkcs5_size (d : Bytes) (b : Nat) (hb : 0 < b) (hd : d.length < 2 ^ 64) (h : b ∣ 2 ^ 64 ∨ d.length ≤ b) :
    (pkcs5 d b).length % b = 0 ∧ d <+: pkcs5 d b ∧ (pkcs5 d b).length < d.length + b := by
  have hm : (subSz b d.length % b) % b = subSz b d.length % b := Nat.mod_mod _ _
  have hlt : subSz b d.length % b < b := Nat.mod_lt _ hb
  refine ⟨?_, ⟨_, rfl⟩, ?_⟩
  · simp only [pkcs5, hm, List.length_append, List.length_replicate]
    rw [Nat.add_mod_mod]
    simp only [subSz]
    split
    · rw [show d.length + (b - d.length) = b by omega, Nat.mod_self]
    · rw [show d.length + (b + 2 ^ 64 - d.length) = b + 2 ^ 64 by omega]
      rcases h with h | h
      · obtain ⟨k, hk⟩ := h
        rw [hk, Nat.add_mul_mod_self_left, Nat.mod_self]
      · omega
  · simp only [pkcs5, hm, List.length_append, List.length_replicate]; omega

/-- With other block sizes the result is not whole blocks. -/
theorem C68_pkcs5_size_fails : (pkcs5 (List.replicate 25 0) 24).length = 40 := by decide +kernel

/-- `remove_pkcs5` undoes `pkcs5` when there was something to pad. -/
theorem C68_pkcs5 (d : Bytes) (b : Nat) (hb : b ∣ 2 ^ 64) (hb' : b ≤ 256) (hd : d ≠ []) (hl : d.length < 2 ^ 64) (h : ¬ b ∣ d.length) :
    removePkcs5 (pkcs5 d b) = .ok d := by
  have hb0 : 0 < b := by rcases Nat.eq_zero_or_pos b with rfl | h0
                         · simp at hb
                         · exact h0
  have hlen : d.length ≠ 0 := by simpa using hd
  have hsz := C68_pkcs5_size d b hb0 hl (Or.inl hb)
  have hm : (subSz b d.length % b) % b = subSz b d.length % b := Nat.mod_mod _ _
  have hlt : subSz b d.length % b < b := Nat.mod_lt _ hb0
  simp only [pkcs5, hm] at hsz ⊢
  generalize subSz b d.length % b = p at *
  have hp : p ≠ 0 := by
    rintro rfl
    apply h
    have := hsz.1
    simp at this
    exact Nat.dvd_of_mod_eq_zero this
  obtain ⟨q, rfl⟩ := Nat.exists_eq_succ_of_ne_zero hp
  have hlast : (d ++ List.replicate (q + 1) (UInt8.ofNat (q + 1))).getLast? = some (UInt8.ofNat (q + 1)) := by
    simp [List.getLast?_append, List.getLast?_replicate]
  have ht : (UInt8.ofNat (q + 1)).toNat = q + 1 := by rw [UInt8.toNat_ofNat']; omega
  simp only [removePkcs5, Nat.succ_eq_add_one, hlast, ht]
  have hl2 : (d ++ List.replicate (q + 1) (UInt8.ofNat (q + 1))).length - (q + 1) = d.length := by simp
  rw [if_pos ⟨by simp; omega, by rw [hl2, List.drop_left]⟩, hl2, List.take_left]

/-- Data of whole blocks is not padded, so its end can pass for padding and is lost; nothing can be removed from the empty string. -/
theorem C68_pkcs5_fails : pkcs5 (ascii "octets \x01") 8 = ascii "octets \x01" ∧ removePkcs5 (pkcs5 (ascii "octets \x01") 8) = .ok (ascii "octets ") ∧
    removePkcs5 (pkcs5 [] 8) = .ub := by decide +kernel

/-! ## Examples -/

example : binify [0xa5] 12 = ascii "000010100101" ∧ bintohex (ascii "10100101") true = .ok (ascii "A5") := by decide +kernel
example : littleEnd (ascii "0a0b0c") = .ok (ascii "0c0b0a") ∧ littleEnd [1, 2, 3] 256 = .ok [3, 2, 1] := by decide +kernel
example : rolStr [0x81, 0x02] 1 = .ok [0x02, 0x05] ∧ rolStr [0x81, 0x02] 9 = .ok [0x05, 0x02] ∧ rolStr [0x81, 0x02] 23 = .ok [0x81, 0x40] := by
  decide +kernel
example : Writes 16 (ascii "fF") 255 := ⟨by decide, [15, 15], by decide +kernel, rfl⟩
example : toint (ascii "fF") 16 = .ok 255 ∧ toint (ascii "18446744073709551617") = .ok (2 ^ 64 - 1) ∧ toint (ascii "11012") 2 = .ok 13 := by decide +kernel
example : mpitodec 1998 = ascii "1998" ∧ mpitobin 6 = ascii "110" ∧ dectompi (ascii "1998") = .ok 1998 ∧ dectompi (ascii "19x") = .throw := by
  decide +kernel
example : trimWhitespaceAt (ascii "  a b ") true true Cli.Module.isSpace = .ok (ascii "a b") ∧
    trimWhitespaceAt (ascii "   ") false true Cli.Module.isSpace = .ok [] := by decide +kernel
example : removePkcs5 (pkcs5 (ascii "octets") 8) = .ok (ascii "octets") ∧ (pkcs5 (ascii "octets") 8).length = 8 := by decide +kernel

end OpenPGP
