import Verif.Model.Framing
import Verif.Lemmas.Includes

namespace OpenPGP

theorem toint256_be2 (n : Nat) (h : n < 65536) : toint256 (be 2 n) = n := by
  rw [toint256, num_be]; omega

theorem toint256_be4 (n : Nat) (h : n < 2 ^ 32) : toint256 (be 4 n) = n := by
  rw [toint256, num_be]; omega

theorem newCtb (tag : Nat) (h : tag < 64) (data : Bytes) (pos : Nat) (rest : Bytes)
    (hd : data.drop pos = UInt8.ofNat (0xc0 ||| tag) :: rest) :
    readPacketHeader data pos = .ok (UInt8.ofNat (0xc0 ||| tag), .new, tag, pos + 1) := by
  have key : ∀ t : Fin 64, ((UInt8.ofNat (0xc0 ||| t.val)) &&& 0x80 ≠ 0) ∧
      ((UInt8.ofNat (0xc0 ||| t.val)) &&& 0x40 ≠ 0) ∧
      ((UInt8.ofNat (0xc0 ||| t.val)) &&& 0x3f).toNat = t.val := by decide
  obtain ⟨h1, h2, h3⟩ := key ⟨tag, h⟩
  unfold readPacketHeader
  rw [charAt_drop hd, Out.ok_bind, if_neg h1, if_pos h2, h3]

theorem oldCtb (tag : Nat) (h : tag < 16) (k : UInt8) (hk : k < 4) (data : Bytes) (pos : Nat) (rest : Bytes)
    (hd : data.drop pos = (UInt8.ofNat (0x80 ||| (tag <<< 2)) ||| k) :: rest) :
    readPacketHeader data pos = .ok ((UInt8.ofNat (0x80 ||| (tag <<< 2))) ||| k, .old, tag, pos + 1) ∧
    ((UInt8.ofNat (0x80 ||| (tag <<< 2))) ||| k) &&& 3 = k := by
  have key : ∀ (t : Fin 16) (k : Fin 4),
      ((UInt8.ofNat (0x80 ||| (t.val <<< 2)) ||| UInt8.ofNat k.val) &&& 0x80 ≠ 0) ∧
      ((UInt8.ofNat (0x80 ||| (t.val <<< 2)) ||| UInt8.ofNat k.val) &&& 0x40 = 0) ∧
      (((UInt8.ofNat (0x80 ||| (t.val <<< 2)) ||| UInt8.ofNat k.val) >>> 2) &&& 0xf).toNat = t.val ∧
      (UInt8.ofNat (0x80 ||| (t.val <<< 2)) ||| UInt8.ofNat k.val) &&& 3 = UInt8.ofNat k.val := by decide
  have hk' : k.toNat < 4 := by simpa [UInt8.lt_iff_toNat_lt] using hk
  obtain ⟨h1, h2, h3, h4⟩ := key ⟨tag, h⟩ ⟨k.toNat, hk'⟩
  simp only [UInt8.ofNat_toNat] at h1 h2 h3 h4
  refine ⟨?_, h4⟩
  unfold readPacketHeader
  rw [charAt_drop hd, Out.ok_bind, if_neg h1, if_neg (by simpa using h2), h3]

/-- What header reading does on definite headers: the position of the body. -/
theorem newDefinite_at {data : Bytes} {pos n : Nat} {rest : Bytes}
    (hd : data.drop pos = newLengthOctets n 0 ++ rest) (hn : n < 2 ^ 32) (hg : ¬ (8128 ≤ n ∧ n ≤ 8383)) :
    ∃ first, charAt data pos = .ok first ∧ (first < 224 ∨ first = 255) ∧
      newDefinite data pos first = .ok (pos + (newLengthOctets n 0).length, n,
        pos + (newLengthOctets n 0).length + n) := by
  unfold newLengthOctets at hd ⊢
  have h0 : newOctets n 0 = 0 := rfl
  simp only [h0, true_and, Nat.zero_ne_one, false_or, show ¬ (0 : Nat) = 2 by omega, show ¬ (0 : Nat) = 5 by omega] at hd ⊢
  split at hd
  · rename_i h
    rw [if_pos h]
    refine ⟨UInt8.ofNat n, charAt_drop hd, Or.inl ?_, ?_⟩
    · rw [UInt8.lt_iff_toNat_lt, UInt8.toNat_ofNat']
      exact lt_of_lt_of_le (b := 192) (by omega) (by decide)
    · have hlt : UInt8.ofNat n < 192 := by
        rw [UInt8.lt_iff_toNat_lt, UInt8.toNat_ofNat']
        exact lt_of_lt_of_le (b := 192) (by omega) (by decide)
      have hv : (UInt8.ofNat n).toNat = n := by rw [UInt8.toNat_ofNat']; omega
      simp [newDefinite, hlt, readOneOctet, charAt_drop hd, hv]
  · rename_i h
    rw [if_neg h]
    split at hd
    · rename_i h2
      rw [if_pos h2]
      have hs : subSz n 0xc0 = n - 192 := by unfold subSz; rw [if_pos (by omega)]
      rw [hs] at hd ⊢
      have hd1 := drop_succ_of hd
      have hv : (UInt8.ofNat ((n - 192) / 256 + 0xc0)).toNat = (n - 192) / 256 + 192 := by
        rw [UInt8.toNat_ofNat']; omega
      have hv2 : (UInt8.ofNat (n - 192)).toNat = (n - 192) % 256 := by
        rw [UInt8.toNat_ofNat']
      have a1 : ¬ (UInt8.ofNat ((n - 192) / 256 + 0xc0) < 192) := by
        rw [UInt8.lt_iff_toNat_lt, hv]; simp
      have a2 : UInt8.ofNat ((n - 192) / 256 + 0xc0) < 223 := by
        rw [UInt8.lt_iff_toNat_lt, hv]; simp only [UInt8.reduceToNat]; omega
      refine ⟨_, charAt_drop hd, Or.inl ?_, ?_⟩
      · rw [UInt8.lt_iff_toNat_lt, hv]; simp only [UInt8.reduceToNat]; omega
      · simp only [newDefinite, if_neg a1, if_pos a2, readTwoOctet, charAt_drop hd, charAt_drop hd1,
          Out.ok_bind, hv, hv2, Out.pure_eq, List.length_cons, List.length_nil]
        have e : ((n - 192) / 256 + 192 - 192) * 256 + (n - 192) % 256 + 192 = n := by omega
        rw [e]
    · rename_i h2
      have h3 : n > 8383 := by omega
      rw [if_neg h2, if_pos h3]
      rw [if_pos h3] at hd
      have hd1 := drop_succ_of hd
      have hl := le_of_drop_cons hd
      refine ⟨255, charAt_drop hd, Or.inr rfl, ?_⟩
      simp only [newDefinite]
      rw [if_neg (by decide), if_neg (by decide), if_pos trivial]
      simp only [readFiveOctet]
      rw [substr_drop (n := 4) hl hd1 (be_length 4 n), Out.ok_bind, toint256_be4 n hn]
      simp [Nat.add_assoc]

/-- Length readable by the reader in each format: the holes are defects of the reader. -/
def readableLen (fmt : Fmt) (n : Nat) : Prop :=
  match fmt with
  | .new => n < 2 ^ 32 ∧ ¬ (8128 ≤ n ∧ n ≤ 8383)
  | .old => n < 65536

def validTag (fmt : Fmt) (tag : Nat) : Prop :=
  match fmt with
  | .new => tag < 64
  | .old => tag < 16

/-- A definite-length packet as the library writes it. -/
def packetOctets (fmt : Fmt) (tag : Nat) (body : Bytes) : Bytes :=
  match fmt with
  | .new => writeNewDefinite tag body
  | .old => writeOldLength tag body

theorem writePacket_eq (fmt : Fmt) (tag : Nat) (body : Bytes) (ht : validTag fmt tag) :
    writePacket fmt tag false body = .ok (packetOctets fmt tag body) := by
  cases fmt with
  | new => simp [writePacket, packetOctets, writeNewLength]
  | old =>
    have : ¬ tag > 15 := by simp only [validTag] at ht; omega
    simp [writePacket, packetOctets, this]

theorem frame_at {data : Bytes} {pos : Nat} {fmt : Fmt} {tag : Nat} {body rest : Bytes}
    (hd : data.drop pos = packetOctets fmt tag body ++ rest) (ht : validTag fmt tag)
    (hn : readableLen fmt body.length) :
    ∃ ctb start, readPacketHeader data pos = .ok (ctb, fmt, tag, pos + 1) ∧
      readUnformatted fmt ctb data (pos + 1)
        = .ok (⟨data, start, body.length, false⟩, pos + (packetOctets fmt tag body).length) ∧
      start + body.length = pos + (packetOctets fmt tag body).length ∧
      data.drop start = body ++ rest ∧ start ≤ data.length ∧ pos < start := by
  cases fmt with
  | new =>
    simp only [packetOctets, writeNewDefinite, List.cons_append, List.append_assoc] at hd
    have hh := newCtb tag ht data pos _ hd
    have hd1 := drop_succ_of hd
    obtain ⟨first, hc, hf, hnd⟩ := newDefinite_at hd1 hn.1 hn.2
    refine ⟨_, pos + 1 + (newLengthOctets body.length 0).length, hh, ?_, ?_, ?_, ?_, ?_⟩
    · simp only [readUnformatted, hc, Out.ok_bind]
      rw [if_neg]
      · rw [hnd, Out.ok_bind]
        simp only [packetOctets, writeNewDefinite, List.length_cons, List.length_append, Out.pure_eq]
        congr 2; omega
      · rcases hf with h | h
        · intro hh; exact absurd h (by simpa using hh.1)
        · simp [h]
    · simp only [packetOctets, writeNewDefinite, List.length_cons, List.length_append]; omega
    · exact drop_add_of hd1
    · exact le_of_drop (le_of_drop_cons hd) hd1
    · omega
  | old =>
    simp only [readableLen] at hn
    simp only [packetOctets, writeOldLength, oldHeader, oldOctets] at hd ⊢
    simp only [Bool.false_eq_true, if_false, Nat.zero_ne_one, show ¬ (0 : Nat) = 2 by omega,
      show ¬ ((0 : Nat) = 3 ∨ (0 : Nat) = 4 ∨ (0 : Nat) > 5) by omega, true_and, false_or,
      show ¬ (0 : Nat) = 5 by omega] at hd ⊢
    split at hd
    · rename_i h
      rw [if_pos h]
      have hd' : data.drop pos = (UInt8.ofNat (0x80 ||| (tag <<< 2)) ||| 0) :: (UInt8.ofNat body.length :: (body ++ rest)) := by
        rw [hd]; simp
      obtain ⟨hh, hk⟩ := oldCtb tag ht 0 (by decide) data pos _ hd'
      have hd1 := drop_succ_of hd'
      have hv : (UInt8.ofNat body.length).toNat = body.length := by rw [UInt8.toNat_ofNat']; omega
      refine ⟨_, pos + 2, hh, ?_, by simp; omega, drop_succ_of hd1, le_of_drop_cons hd1, by omega⟩
      simp only [readUnformatted, if_pos hk, readOneOctet, charAt_drop hd1, Out.ok_bind, Out.pure_eq, hv]
      simp [Nat.add_assoc]; omega
    · rename_i h
      have h2 : 256 ≤ body.length ∧ body.length < 65536 := by omega
      rw [if_neg h, if_pos h2]
      rw [if_pos h2] at hd
      simp only [List.cons_append, List.append_assoc] at hd
      obtain ⟨hh, hk⟩ := oldCtb tag ht 1 (by decide) data pos _ hd
      have hd1 := drop_succ_of hd
      have hd2 : data.drop (pos + 1) = be 2 body.length ++ (body ++ rest) := hd1
      have hd3 := drop_add_of hd2
      have hl := le_of_drop_cons hd
      refine ⟨_, pos + 1 + 2, hh, ?_, by simp; omega, by simpa using hd3, by have := le_of_drop hl hd2; simpa using this, by omega⟩
      have k0 : ¬ ((UInt8.ofNat (0x80 ||| (tag <<< 2))) ||| 1) &&& 3 = 0 := by rw [hk]; decide
      simp only [readUnformatted, if_neg k0, if_pos hk, readTwoOctet]
      rw [substr_drop (n := 2) hl hd2 (be_length 2 _), Out.ok_bind]
      simp only [Out.pure_eq, Out.ok_bind, toint256_be2 _ hn]
      simp; omega

theorem packetOctets_ne_nil (fmt : Fmt) (tag : Nat) (body : Bytes) : packetOctets fmt tag body ≠ [] := by
  cases fmt with
  | new => simp [packetOctets, writeNewDefinite]
  | old =>
    simp only [packetOctets, writeOldLength, oldHeader]
    intro h
    have := List.append_eq_nil_iff.mp h
    revert this
    simp only [Bool.false_eq_true, if_false]
    split_ifs <;> simp

end OpenPGP
