import Verif.Model.Mpi
import Verif.Lemmas.Includes

namespace OpenPGP

theorem log2_lt_pow (a n : Nat) (h : a.log2 < n) : a < 2 ^ n := by
  by_cases h0 : a = 0
  · subst h0; exact Nat.pow_pos (by omega)
  · exact (Nat.log2_lt h0).mp h

/-- The octets of an integer: as few as possible, at least one. -/
def mpiRaw (a : Nat) : Bytes := be (a.log2 / 8 + 1) a

theorem makehex_cons_zero (a n : Nat) (h : a < 16 ^ n) : makehex a (n + 1) false = 48 :: makehex a n false := by
  induction n generalizing a with
  | zero => simp at h; subst h; rfl
  | succ n ih =>
    rw [makehex, ih (a / 16) (by rw [Nat.pow_succ] at h; omega)]
    rfl

theorem mpitohex_eq (a : Nat) : mpitohex a = makehex a (2 * (a.log2 / 8 + 1)) false := by
  unfold mpitohex getStr16
  simp only [makehex_length]
  have h16 : a < 16 ^ (a.log2 / 4 + 1) := by
    have := log2_lt_pow a (4 * (a.log2 / 4 + 1)) (by omega)
    rwa [Nat.pow_mul] at this
  split
  · rw [← makehex_cons_zero _ _ h16]
    congr 1; omega
  · congr 1; omega

theorem mpitoraw_eq (a : Nat) : mpitoraw a = .ok (mpiRaw a) := by
  rw [mpitoraw, mpitohex_eq, unhexlify_makehex]; rfl

theorem num_mpiRaw (a : Nat) : num (mpiRaw a) = a := by
  rw [mpiRaw, num_be, Nat.mod_eq_of_lt]
  have := log2_lt_pow a (8 * (a.log2 / 8 + 1)) (by omega)
  rwa [Nat.pow_mul] at this

theorem mpiRaw_ne_nil (a : Nat) : mpiRaw a ≠ [] := by
  intro h
  have := congrArg List.length h
  simp [mpiRaw] at this

@[simp] theorem mpiRaw_length (a : Nat) : (mpiRaw a).length = a.log2 / 8 + 1 := by simp [mpiRaw]

/-- The written form of an integer. -/
def mpiOctets (a : Nat) : Bytes := be 2 (bitsize a) ++ mpiRaw a

theorem writeMPI_eq (a : Nat) : writeMPI a = .ok (mpiOctets a) := by
  unfold writeMPI
  rw [mpitoraw_eq, unhexlify_makehex _ 2]
  rfl

@[simp] theorem mpiOctets_length (a : Nat) : (mpiOctets a).length = 2 + (a.log2 / 8 + 1) := by
  simp [mpiOctets]

theorem hexValue_hexDigit (d : Nat) (h : d < 16) : hexValue (hexDigit false d) = some d := by
  rw [hexValue, unhexChar_hexDigit _ _ h]
  simp; omega

theorem hextompi_fold_makehex (v n a : Nat) :
    (makehex v n false).foldl hexStep (Out.ok a) = .ok (a * 16 ^ n + v % 16 ^ n) := by
  induction n generalizing v with
  | zero => simp [makehex, Nat.mod_one]
  | succ n ih =>
    rw [makehex, List.foldl_append, ih]
    simp only [List.foldl_cons, List.foldl_nil, hexStep, Out.ok_bind]
    rw [hexValue_hexDigit _ (Nat.mod_lt _ (by omega))]
    simp only
    rw [show 16 ^ (n + 1) = 16 * 16 ^ n by ring, Nat.mod_mul]
    congr 1; ring

theorem hextompi_fold_hexlify (s : Bytes) (a : Nat) :
    (hexlify s).foldl hexStep (Out.ok a) = .ok (a * 256 ^ s.length + num s) := by
  induction s generalizing a with
  | nil => simp [hexlify]
  | cons c s ih =>
    have h1 : hexlify (c :: s) = makehex c.toNat 2 false ++ hexlify s := by
      simp [hexlify, hexlifyChar]
    rw [h1, List.foldl_append, hextompi_fold_makehex, ih]
    have hc := c.toNat_lt
    rw [Nat.mod_eq_of_lt (by omega : c.toNat < 16 ^ 2), num_cons, List.length_cons]
    congr 1; ring

theorem rawtompi_eq (s : Bytes) : rawtompi s = if s = [] then .throw else .ok (num s) := by
  unfold rawtompi hextompi
  by_cases h : s = []
  · subst h; simp [hexlify]
  · have hne : hexlify s ≠ [] := by
      intro hc
      have := congrArg List.length hc
      rw [hexlify_length] at this
      apply h; apply List.length_eq_zero_iff.mp; simpa using this
    rw [if_neg hne, if_neg h, hextompi_fold_hexlify]; simp

theorem readMPI_at {data : Bytes} {pos : Nat} {rest : Bytes} {a : Nat}
    (h : data.drop pos = mpiOctets a ++ rest) (hb : bitsize a ≤ 65528) :
    readMPI data pos = .ok (a, pos + (mpiOctets a).length) := by
  unfold mpiOctets at h
  rw [be_two] at h
  have h0 : data.drop pos = UInt8.ofNat (bitsize a / 256) :: (UInt8.ofNat (bitsize a) :: (mpiRaw a ++ rest)) := by
    rw [h]; simp
  have h1 := drop_succ_of h0
  have h2 := drop_succ_of h1
  have hl := le_of_drop_cons h1
  unfold readMPI
  rw [charAt_drop h0, Out.ok_bind, charAt_drop h1, Out.ok_bind]
  have hs : (UInt8.ofNat (bitsize a / 256)).toNat * 256 + (UInt8.ofNat (bitsize a)).toNat = bitsize a := by
    simp only [UInt8.toNat_ofNat']; omega
  simp only [hs]
  have hr : roundUp8 (bitsize a) / 8 = a.log2 / 8 + 1 := by
    unfold roundUp8 bitsize at *
    rw [Nat.mod_eq_of_lt (by omega)]
    omega
  rw [hr, substr_drop (n := a.log2 / 8 + 1) (by omega) h2 (by simp), Out.ok_bind, rawtompi_eq,
    if_neg (mpiRaw_ne_nil a), Out.ok_bind, num_mpiRaw]
  simp [Nat.add_assoc]

end OpenPGP
