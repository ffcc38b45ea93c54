import Verif.Lemmas.HashStd

/-!
# C42: the padding of the built-in hashes is the standard's

`Std.pad` (Spec/Hash.lean) is the padding rule of RFC 1321 and FIPS 180-4.
-/
namespace OpenPGP

/-- The hash classes of the library. -/
def hashClasses : List (Σ S : Type, HashAlg S) :=
  [⟨_, md5⟩, ⟨_, sha1⟩, ⟨_, ripemd160⟩, ⟨_, sha256⟩, ⟨_, sha224⟩, ⟨_, sha512⟩, ⟨_, sha384⟩]

/-- `update` called with each piece in turn on a new object. -/
def HashAlg.feed {S : Type} (alg : HashAlg S) (pieces : List Bytes) : Out (HashObj S) :=
  pieces.foldlM (fun o s => alg.update o s) alg.fresh

/-- The bit length: least significant octet first for MD5 and RIPEMD-160, most significant first for the others. -/
def lengthField {S : Type} (alg : HashAlg S) (n : Nat) : Bytes :=
  if alg.little then Std.encLE alg.lenSize n else Std.encBE alg.lenSize n

theorem leWords_getElem (p : Bytes) (k : Nat) (hk : p.length = 4 * k) (i : Nat) (hi : i < p.length) :
    (leWords p)[i]? = p[4 * (i / 4) + (3 - i % 4)]? := by
  induction k generalizing p i with
  | zero => omega
  | succ k ih =>
    rcases p with _ | ⟨x, _ | ⟨y, _ | ⟨z, _ | ⟨u, r⟩⟩⟩⟩ <;> simp at hk <;> try omega
    rw [leWords]
    by_cases h : i < 4
    · interval_cases i <;> rfl
    · obtain ⟨j, rfl⟩ : ∃ j, i = j + 4 := ⟨i - 4, by omega⟩
      have := ih r (by omega) j (by simp at hi; omega)
      have e : 4 * ((j + 4) / 4) + (3 - (j + 4) % 4) = 4 * (j / 4) + (3 - j % 4) + 4 := by omega
      rw [e]
      simpa using this

theorem feed_ok {S T : Type} {alg : HashAlg S} {φ : S → T} {comp : T → Bytes → T} {ini : T} {enc : Nat → Bytes}
    {out : T → Bytes} (H : Implements alg φ comp ini enc out) (pieces : List Bytes) (m : Bytes) (o : HashObj S)
    (ho : Holds alg φ comp ini m o) (hs : ∀ s ∈ pieces, s.length + alg.bs ≤ 2 ^ 32)
    (ht : m.length + pieces.flatten.length < 2 ^ 61) :
    ∃ o', pieces.foldlM (fun o s => alg.update o s) o = .ok o' ∧ Holds alg φ comp ini (m ++ pieces.flatten) o' := by
  have hbs : 0 < alg.bs := by have := H.bs_pos; have := H.len8; omega
  induction pieces generalizing m o with
  | nil => exact ⟨o, rfl, by simpa using ho⟩
  | cons s ps ih =>
    have hsl : o.stack.length < alg.bs := by
      rw [ho.stack, List.length_drop]
      have := Nat.mod_lt m.length hbs
      have := Nat.div_add_mod' m.length alg.bs
      omega
    have h1 := hs s (by simp)
    simp only [List.flatten_cons, List.length_append] at ht
    obtain ⟨o1, hu, ho1⟩ := update_ok H m s o ho (by omega) (by simp; omega)
    obtain ⟨o2, h2, ho2⟩ := ih (m ++ s) o1 ho1 (fun s hs' => hs s (by simp [hs']))
      (by rw [List.length_append]; omega)
    refine ⟨o2, ?_, by simpa using ho2⟩
    rw [List.foldlM_cons, hu]
    exact h2

theorem padding_of {S T : Type} {alg : HashAlg S} {φ : S → T} {comp : T → Bytes → T} {ini : T} {enc : Nat → Bytes}
    {out : T → Bytes} (H : Implements alg φ comp ini enc out) (henc : enc = lengthField alg) (pieces : List Bytes)
    (hs : ∀ s ∈ pieces, s.length + alg.bs ≤ 2 ^ 32) (ht : pieces.flatten.length < 2 ^ 61) :
    ∃ o tail blocks, alg.feed pieces = .ok o ∧ alg.lastBlocks o = .ok blocks ∧
      pieces.flatten.take o.clen ++ tail = Std.pad alg.bs alg.lenSize (lengthField alg) pieces.flatten ∧
      blocks.length = tail.length ∧ alg.bs ∣ o.clen ∧ alg.bs ∣ tail.length ∧
      ∀ i < tail.length, blocks[i]? = tail[if alg.little then 4 * (i / 4) + (3 - i % 4) else i]? := by
  obtain ⟨o, ho, hh⟩ := feed_ok H pieces [] alg.fresh (holds_fresh H) hs (by simpa using ht)
  rw [List.nil_append] at hh
  obtain ⟨p, hp, hpad, ⟨k, hk⟩, _⟩ := lastBlocks_ok H pieces.flatten o hh ht
  obtain ⟨k4, hk4⟩ := H.bs4
  refine ⟨o, p, alg.conv p, ho, hp, ?_, ?_, ?_, ⟨k, by rw [hk, Nat.mul_comm]⟩, ?_⟩
  · rw [hh.clen, hpad, henc]
  · exact conv_length alg p ⟨k * k4, by rw [hk, hk4]; ring⟩
  · rw [hh.clen]; exact ⟨_, Nat.mul_comm _ _⟩
  · intro i hi
    rw [HashAlg.conv]
    split
    · exact leWords_getElem p (k * k4) (by rw [hk, hk4]; ring) i hi
    · rfl

/-- For every class and every message given in any pieces, the octets passed to the compression function are the
message padded as the standard says: the part consumed by `update` followed by the block or two that `digest`
appends (with the octets of every 32-bit word reversed for the little-endian hashes, whose `calc` reads words most
significant octet first).  Each piece must be shorter than 4 GiB minus one block, the total below 2^61 octets. -/
theorem C42_padding (c : Σ S : Type, HashAlg S) (hc : c ∈ hashClasses) (pieces : List Bytes)
    (hs : ∀ s ∈ pieces, s.length + 128 ≤ 2 ^ 32) (ht : pieces.flatten.length < 2 ^ 61) :
    ∃ o tail blocks, c.2.feed pieces = .ok o ∧ c.2.lastBlocks o = .ok blocks ∧
      pieces.flatten.take o.clen ++ tail = Std.pad c.2.bs c.2.lenSize (lengthField c.2) pieces.flatten ∧
      blocks.length = tail.length ∧ c.2.bs ∣ o.clen ∧ c.2.bs ∣ tail.length ∧
      ∀ i < tail.length, blocks[i]? = tail[if c.2.little then 4 * (i / 4) + (3 - i % 4) else i]? := by
  simp only [hashClasses, List.mem_cons, List.not_mem_nil, or_false] at hc
  rcases hc with rfl | rfl | rfl | rfl | rfl | rfl | rfl
  · exact padding_of md5_implements (by funext n; rfl) pieces (fun s h => by have := hs s h; show s.length + 64 ≤ _; omega) ht
  · exact padding_of sha1_implements (by funext n; rfl) pieces (fun s h => by have := hs s h; show s.length + 64 ≤ _; omega) ht
  · exact padding_of ripemd160_implements (by funext n; rfl) pieces (fun s h => by have := hs s h; show s.length + 64 ≤ _; omega) ht
  · exact padding_of sha256_implements (by funext n; rfl) pieces (fun s h => by have := hs s h; show s.length + 64 ≤ _; omega) ht
  · exact padding_of sha224_implements (by funext n; rfl) pieces (fun s h => by have := hs s h; show s.length + 64 ≤ _; omega) ht
  · exact padding_of sha512_implements (by funext n; rfl) pieces hs ht
  · exact padding_of sha384_implements (by funext n; rfl) pieces hs ht

/-- The padded message is a whole number of blocks, starts with the message followed by 0x80, and ends with the bit
length. -/
theorem C42_shape (c : Σ S : Type, HashAlg S) (hc : c ∈ hashClasses) (m : Bytes) :
    c.2.bs ∣ (Std.pad c.2.bs c.2.lenSize (lengthField c.2) m).length ∧
      (m ++ [0x80]) <+: Std.pad c.2.bs c.2.lenSize (lengthField c.2) m ∧
      lengthField c.2 (8 * m.length) <:+ Std.pad c.2.bs c.2.lenSize (lengthField c.2) m ∧
      (Std.pad c.2.bs c.2.lenSize (lengthField c.2) m).length < m.length + 1 + c.2.lenSize + c.2.bs := by
  have hl : ∀ n, (lengthField c.2 n).length = c.2.lenSize := fun n => by
    rw [lengthField]; split <;> simp [Std.encLE, Std.encBE]
  have hb : 0 < c.2.bs := by
    simp only [hashClasses, List.mem_cons, List.not_mem_nil, or_false] at hc
    rcases hc with rfl | rfl | rfl | rfl | rfl | rfl | rfl <;> decide
  refine ⟨?_, ⟨_, by rw [Std.pad, List.append_assoc (_ ++ _)]⟩, ⟨_, rfl⟩, ?_⟩
  · simp only [Std.pad, List.length_append, List.length_singleton, List.length_replicate, hl]
    generalize c.2.bs = B at *
    have := Nat.mod_lt (m.length + 1 + c.2.lenSize) hb
    rw [show m.length + 1 + (B - (m.length + 1 + c.2.lenSize) % B) % B + c.2.lenSize =
      m.length + 1 + c.2.lenSize + (B - (m.length + 1 + c.2.lenSize) % B) % B by omega]
    apply Nat.dvd_of_mod_eq_zero
    rw [Nat.add_mod, Nat.mod_mod, ← Nat.add_mod]
    have h2 := Nat.div_add_mod (m.length + 1 + c.2.lenSize) B
    generalize m.length + 1 + c.2.lenSize = X at *
    rw [show X + (B - X % B) = B * (X / B) + B by omega, ← Nat.mul_succ, Nat.mul_mod_right]
  · simp only [Std.pad, List.length_append, List.length_singleton, List.length_replicate, hl]
    have := Nat.mod_lt (c.2.bs - (m.length + 1 + c.2.lenSize) % c.2.bs) hb
    omega

/-- Distinct messages have distinct padded forms. -/
theorem C42_injective (c : Σ S : Type, HashAlg S) (hc : c ∈ hashClasses) (m m' : Bytes) (hm : m.length < 2 ^ 61)
    (hm' : m'.length < 2 ^ 61)
    (h : Std.pad c.2.bs c.2.lenSize (lengthField c.2) m = Std.pad c.2.bs c.2.lenSize (lengthField c.2) m') :
    m = m' := by
  have hl : ∀ n, (lengthField c.2 n).length = c.2.lenSize := fun n => by
    rw [lengthField]; split <;> simp [Std.encLE, Std.encBE]
  have h8 : 8 ≤ c.2.lenSize := by
    simp only [hashClasses, List.mem_cons, List.not_mem_nil, or_false] at hc
    rcases hc with rfl | rfl | rfl | rfl | rfl | rfl | rfl <;> decide
  rw [Std.pad, Std.pad] at h
  obtain ⟨h1, h2⟩ := List.append_inj' h (by rw [hl, hl])
  have hbe : be c.2.lenSize (8 * m.length) = be c.2.lenSize (8 * m'.length) := by
    rw [lengthField, lengthField] at h2
    split at h2
    · exact List.reverse_injective h2
    · exact h2
  have hpow : 2 ^ 64 ≤ 256 ^ c.2.lenSize := by
    calc 2 ^ 64 = 256 ^ 8 := by norm_num
      _ ≤ _ := Nat.pow_le_pow_right (by norm_num) h8
  have hn := congrArg num hbe
  rw [num_be, num_be, Nat.mod_eq_of_lt (by omega), Nat.mod_eq_of_lt (by omega)] at hn
  have hlen : m.length = m'.length := by omega
  rw [List.append_assoc, List.append_assoc] at h1
  exact (List.append_inj h1 hlen).1

/-- The classes are the seven of the library and a concrete padding: the empty message under SHA-1. -/
example : hashClasses.length = 7 ∧ Std.pad 64 8 (lengthField sha1) [] = 0x80 :: List.replicate 63 0 := by
  decide +kernel

/-- A 56-octet message needs a second block. -/
example : (Std.pad 64 8 (lengthField md5) (List.replicate 56 7)).length = 128 := by decide +kernel

end OpenPGP
