import Verif.Model.KeyPkt
import Verif.Lemmas.Tag2

namespace OpenPGP
namespace KeyPkt

/-- A version 4 key packet with the number of MPIs its algorithm prescribes. -/
def wfV4 (k : KeyPkt) : Prop :=
  k.version = 4 ∧ mpiCount k.pka = some k.mpi.length ∧ k.time < 2 ^ 32 ∧ (∀ a ∈ k.mpi, bitsize a ≤ 65528) ∧ k.expire = 0

/-- A key packet of version 2 or 3 (two MPIs, expiry in 16 bits). -/
def wfV3 (k : KeyPkt) : Prop :=
  k.version < 4 ∧ k.mpi.length = 2 ∧ k.time < 2 ^ 32 ∧ (∀ a ∈ k.mpi, bitsize a ≤ 65528) ∧ k.expire < 2 ^ 16

theorem readCommon_v4 (k : KeyPkt) (h : k.wfV4) {data : Bytes} {pos : Nat} {rest : Bytes}
    (hd : data.drop pos = k.rawCommon ++ rest) :
    readCommon data pos = .ok (k, pos + k.rawCommon.length) := by
  obtain ⟨version, time, pka, mpi, expire⟩ := k
  obtain ⟨h1, h2, h3, h4, h5⟩ := h
  simp only at h1 h2 h3 h4 h5
  subst h1 h5
  have hraw : rawCommon ⟨4, time, pka, mpi, 0⟩ = [4] ++ (be 4 time ++ ([pka] ++ writeMPIs mpi)) := by
    simp [rawCommon]
  rw [hraw] at hd ⊢
  simp only [List.append_assoc] at hd
  have hp : pos + 1 ≤ data.length := le_of_drop_cons hd
  have hd1 := drop_field hd (n := 1) rfl
  have hd2 := drop_field hd1 (be_length 4 _)
  have hd3 := drop_field hd2 (n := 1) rfl
  have hmpi := readMPIs_at mpi hd3 h4
  rw [readCommon, charAt_drop hd, Out.ok_bind, substr_drop hp hd1 (be_length 4 _), Out.ok_bind]
  simp only
  rw [if_neg (by decide), if_pos trivial, charAt_drop hd2, Out.ok_bind, h2]
  simp only
  rw [show pos + 6 = pos + 1 + 4 + 1 by omega, hmpi, Out.ok_bind, toint256_be4 _ h3,
    show time % 2 ^ 32 = time from Nat.mod_eq_of_lt h3]
  simp only [Out.pure_eq, List.length_append, List.length_singleton, be_length]
  congr 2
  omega

theorem readCommon_old (k : KeyPkt) (h1 : k.version < 4) (h2 : k.mpi.length = 2) (h3 : k.time < 2 ^ 32)
    (h4 : ∀ a ∈ k.mpi, bitsize a ≤ 65528) {data : Bytes} {pos : Nat} {rest : Bytes}
    (hd : data.drop pos = k.rawCommon ++ rest) :
    readCommon data pos = .ok ({ k with expire := expireOf (UInt8.ofNat (k.expire / 256)) (UInt8.ofNat k.expire) },
      pos + k.rawCommon.length) := by
  obtain ⟨version, time, pka, mpi, expire⟩ := k
  simp only at h1 h2 h3 h4
  have hraw : rawCommon ⟨version, time, pka, mpi, expire⟩ =
      [version] ++ (be 4 time ++ ([UInt8.ofNat (expire / 256)] ++ ([UInt8.ofNat expire] ++ ([pka] ++ writeMPIs mpi)))) := by
    simp [rawCommon, h1, be_two]
  rw [hraw] at hd ⊢
  simp only [List.append_assoc] at hd
  have hp : pos + 1 ≤ data.length := le_of_drop_cons hd
  have hd1 := drop_field hd (n := 1) rfl
  have hd2 := drop_field hd1 (be_length 4 _)
  have hd3 := drop_field hd2 (n := 1) rfl
  have hd4 := drop_field hd3 (n := 1) rfl
  have hd5 := drop_field hd4 (n := 1) rfl
  have hmpi := readMPIs_at mpi hd5 h4
  rw [h2] at hmpi
  rw [readCommon, charAt_drop hd, Out.ok_bind, substr_drop hp hd1 (be_length 4 _), Out.ok_bind]
  simp only
  rw [if_pos h1, charAt_drop hd2, Out.ok_bind, charAt_drop hd3, Out.ok_bind, charAt_drop hd4, Out.ok_bind,
    show pos + 8 = pos + 1 + 4 + 1 + 1 + 1 by omega, hmpi, Out.ok_bind, toint256_be4 _ h3,
    show time % 2 ^ 32 = time from Nat.mod_eq_of_lt h3]
  simp only [Out.pure_eq, List.length_append, List.length_singleton, be_length]
  congr 2
  omega

theorem readCommon_v3 (k : KeyPkt) (h : k.wfV3) {data : Bytes} {pos : Nat} {rest : Bytes}
    (hd : data.drop pos = k.rawCommon ++ rest) :
    readCommon data pos = .ok ({ k with expire := expireOf (UInt8.ofNat (k.expire / 256)) (UInt8.ofNat k.expire) },
      pos + k.rawCommon.length) := readCommon_old k h.1 h.2.1 h.2.2.1 h.2.2.2.1 hd

/-- Both octets of the expiry below 128: it is read back. -/
theorem expireOf_small {e : Nat} (h1 : e / 256 < 128) (h2 : e % 256 < 128) :
    expireOf (UInt8.ofNat (e / 256)) (UInt8.ofNat e) = e := by
  have a1 : (UInt8.ofNat (e / 256)).toNat = e / 256 := by rw [UInt8.toNat_ofNat']; omega
  have a2 : (UInt8.ofNat e).toNat = e % 256 := by rw [UInt8.toNat_ofNat']
  rw [expireOf, schar, schar, a1, a2, if_pos h1, if_pos h2]
  omega

/-- One of the octets 128 or more: another value is read. -/
theorem expireOf_large {e : Nat} (he : e < 2 ^ 16) (h : 128 ≤ e / 256 ∨ 128 ≤ e % 256) :
    expireOf (UInt8.ofNat (e / 256)) (UInt8.ofNat e) ≠ e := by
  have a1 : (UInt8.ofNat (e / 256)).toNat = e / 256 := by rw [UInt8.toNat_ofNat']; omega
  have a2 : (UInt8.ofNat e).toNat = e % 256 := by rw [UInt8.toNat_ofNat']
  rw [expireOf, schar, schar, a1, a2]
  split <;> split <;> omega

theorem rawCommon_ne_nil (k : KeyPkt) : k.rawCommon.length ≠ 0 := by simp [rawCommon]

end KeyPkt
end OpenPGP
