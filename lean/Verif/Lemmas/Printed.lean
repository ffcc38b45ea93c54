import Verif.Model.Commands
import Verif.Lemmas.Signed
import Verif.Props.C35

/-!
# What a command prints in armor is read back

`std::endl` behind the armor tail makes no difference.
-/
namespace OpenPGP.Cli
open OpenPGP Rfc
variable {E : Type}

/-- Armored packets, with or without a line feed behind them, are read as the packets. -/
theorem armored_read (n : Nat) (o : PgpObj (Pkt (SigAt n))) (h1 : 1 ≤ o.type) (h6 : o.type ≤ 6) (hh : ∀ h ∈ o.keys, goodHeader h)
    (hp : placed n 0 o.packets) (hne : o.packets ≠ []) :
    ∃ t, writeObj (rawAt n) o .yes = .ok t ∧ ∀ e, e = [] ∨ e = [10] →
      pgpRead (Pkt.parse (readSigAt n)) .fresh (t ++ e) = .ok { o with armored := true } := by
  obtain ⟨octets, hw, hl, hread⟩ := placed_loop n o.packets 0 hp
  have ho : octets ≠ [] := by
    rintro rfl
    exact hne (List.length_eq_zero_iff.mp (by simpa using hl))
  have hr := hread octets (octets.length + 1) (by omega) (by simp) (by omega)
  obtain ⟨out, body, h2, h3, h4, h5, h7⟩ := C15_written o .yes octets h1 h6 hh (Or.inl rfl)
  refine ⟨out, by rw [writeObj, hw, Out.ok_bind, h2], fun e he => ?_⟩
  have hlines : ∃ after, (getlines (out ++ e)).map rtrim = [] ++ armorLines o.type o.keys body (ascii2radix64 (be 3 (crc24 octets).toNat)) ++ after := by
    rcases he with rfl | rfl
    · exact ⟨[], by rw [List.append_nil, h4, h3]; simp⟩
    rcases getlines_lf out with h | h
    · exact ⟨[], by rw [h, h4, h3]; simp⟩
    · exact ⟨[[]], by rw [h, List.map_append, h4, h3]; simp [rtrim, trimWhitespace]⟩
  obtain ⟨after, hlines⟩ := hlines
  have hc : radix642ascii (ascii2radix64 (be 3 (crc24 octets).toNat)) = .ok (be 3 (crc24 octets).toNat) := by
    exact C02_radix64_roundtrip_default _ (by intro h; have := congrArg List.length h; simp at this)
  rw [C15_read (Pkt.parse (readSigAt n)) .fresh (out ++ e) [] after body o.type o.keys octets _ _ h1 h6 hlines (by simp) hh h5 (fun l hl => (h7 l hl).1) ho hc]
  have hr' : readRaw (Pkt.parse (readSigAt n)) octets = .ok o.packets := hr
  rw [hr']
  rfl

/-- Armored packets with a line feed behind them are read as the packets. -/
theorem armored_lf (n : Nat) (o : PgpObj (Pkt (SigAt n))) (h1 : 1 ≤ o.type) (h6 : o.type ≤ 6) (hh : ∀ h ∈ o.keys, goodHeader h)
    (hp : placed n 0 o.packets) (hne : o.packets ≠ []) :
    ∃ t, writeObj (rawAt n) o .yes = .ok t ∧ pgpRead (Pkt.parse (readSigAt n)) .fresh (t ++ [10]) = .ok { o with armored := true } := by
  obtain ⟨t, ht, hr⟩ := armored_read n o h1 h6 hh hp hne
  exact ⟨t, ht, hr [10] (Or.inr rfl)⟩

theorem versionCc_good : ∀ h ∈ versionCc, goodHeader h := by
  intro h hh
  obtain rfl := List.mem_singleton.mp hh
  refine ⟨by decide +kernel, by decide +kernel, by decide +kernel, by decide +kernel, ?_, ?_⟩
  · intro c hc
    have : (ascii "cc").head? = some 99 := by decide +kernel
    obtain rfl := Option.some.inj (this.symm.trans hc)
    unfold isWhite; decide +kernel
  · intro c hc
    have : (ascii "cc").getLast? = some 99 := by decide +kernel
    obtain rfl := Option.some.inj (this.symm.trans hc)
    unfold isWhite; decide +kernel

/-- A name without white space as a value. -/
theorem goodHeader_of {k v : Bytes} (h1 : 58 ∉ k) (h2 : 10 ∉ k) (h3 : v ≠ []) (h4 : ∀ c ∈ v, 32 < c) : goodHeader (k, v) := by
  have hw : ∀ c : UInt8, 32 < c → ¬ isWhite c := by
    have : ∀ c ∈ ascii " \t\n\x0b\x0c\r", ¬ (32 : UInt8) < c := by decide +kernel
    exact fun c hc hm => this c hm hc
  refine ⟨h1, h2, fun h => absurd (h4 _ h) (by decide), h3, fun c hc => hw c (h4 c ?_), fun c hc => hw c (h4 c ?_)⟩
  · exact List.mem_of_mem_head? hc
  · exact List.mem_of_mem_getLast? hc

/-- The header with the name of a hash. -/
theorem hashHeader_good {h : UInt8} (hh : (hashLen h).isSome) : ∀ k ∈ [(ascii "Hash", hashName h)], goodHeader k := by
  intro k hk
  obtain rfl := List.mem_singleton.mp hk
  obtain ⟨n, hn⟩ := Option.isSome_iff_exists.mp hh
  rcases hashAlg_cases hn with rfl | rfl | rfl | rfl | rfl | rfl | rfl <;>
    exact goodHeader_of (by decide +kernel) (by decide +kernel) (by decide +kernel) (by decide +kernel)

/-- A key printed in armor. -/
theorem key_printed (n : Nat) (hs : List (Bytes × Bytes)) (k : KeyObj (SigAt n)) (hk : k.kind = .pub ∨ k.kind = .sec) (hg : k.meaningful = .ok true)
    (hh : ∀ h ∈ hs, goodHeader h) (hp : placed n 0 k.packets) (hne : k.packets ≠ []) :
    ∃ t, writeKey (rawAt n) hs k .yes = .ok t ∧ keyOf (readSigAt n) (t ++ [10]) = .ok (hs, k) := by
  obtain ⟨t, h1, h2⟩ := armored_lf n ⟨true, if k.kind = .pub then 2 else 3, hs, k.packets⟩ (by dsimp only; split <;> omega) (by dsimp only; split <;> omega) hh hp hne
  refine ⟨t, h1, ?_⟩
  rw [keyOf, h2, Out.ok_bind]
  obtain ⟨kind, ps⟩ := k
  rcases hk with rfl | rfl <;> simp [hg]

/-- A key written to a file in armor. -/
theorem key_armored (n : Nat) (hs : List (Bytes × Bytes)) (k : KeyObj (SigAt n)) (hk : k.kind = .pub ∨ k.kind = .sec) (hg : k.meaningful = .ok true)
    (hh : ∀ h ∈ hs, goodHeader h) (hp : placed n 0 k.packets) (hne : k.packets ≠ []) :
    ∃ t, writeKey (rawAt n) hs k .yes = .ok t ∧ keyOf (readSigAt n) t = .ok (hs, k) := by
  obtain ⟨t, h1, h2⟩ := armored_read n ⟨true, if k.kind = .pub then 2 else 3, hs, k.packets⟩ (by dsimp only; split <;> omega) (by dsimp only; split <;> omega) hh hp hne
  refine ⟨t, h1, ?_⟩
  have h2 := h2 [] (Or.inl rfl)
  rw [List.append_nil] at h2
  rw [keyOf, h2, Out.ok_bind]
  obtain ⟨kind, ps⟩ := k
  rcases hk with rfl | rfl <;> simp [hg]

/-- A key written to a file without armor. -/
theorem key_binary (n : Nat) (hs : List (Bytes × Bytes)) (k : KeyObj (SigAt n)) (hk : k.kind = .pub ∨ k.kind = .sec) (hg : k.meaningful = .ok true)
    (hp : placed n 0 k.packets) (h2 : 2 ≤ k.packets.length) (p : Pkt (SigAt n)) (hh : k.packets.head? = some p) (ht : p.body.tag = if k.kind = .pub then 6 else 5) :
    ∃ t, writeKey (rawAt n) hs k .no = .ok t ∧ ((∀ l ∈ getlines t, ¬ ascii "-----BEGIN PGP " <+: rtrim l) → keyOf (readSigAt n) t = .ok ([], k)) := by
  obtain ⟨octets, hw, hl, hread⟩ := placed_loop n k.packets 0 hp
  have hr := hread octets (octets.length + 1) (by omega) (by simp) (by omega)
  refine ⟨octets, by rw [writeKey, writeObj, hw]; rfl, fun hno => ?_⟩
  have eb : armorBegin = ascii "-----BEGIN PGP " := by decide
  have hr' : readRaw (Pkt.parse (readSigAt n)) octets = .ok k.packets := hr
  rw [keyOf, pgpRead, findBegin_none (by rw [eb]; exact hno)]
  simp only [hr', Out.ok_bind]
  obtain ⟨kind, ps⟩ := k
  obtain ⟨q, qs, rfl⟩ := List.exists_cons_of_ne_nil (show ps ≠ [] by rintro rfl; simp at hh)
  obtain rfl : q = p := by simpa using hh
  simp only at ht h2
  rcases hk with rfl | rfl
  · rw [if_pos rfl] at ht
    simp only [Out.pure_eq, if_neg (show ¬ (q :: qs).length < 2 by omega), ht, if_true, Out.ok_bind, hg]
    rfl
  · rw [if_neg (by simp)] at ht
    simp only [Out.pure_eq, if_neg (show ¬ (q :: qs).length < 2 by omega), ht, Out.ok_bind, hg, Nat.reduceEqDiff, if_false, if_true]
    rfl

/-- A detached signature printed in armor. -/
theorem detached_printed (n : Nat) (s : Tag2 (SigAt n)) (hw : wfSig (n + 1) s) (hv : s.version = 4) (hl : (Tag2.raw (rawAt n) s).length < 8128) :
    ∃ t, writeObj (rawAt n) (detachedOf s) .yes = .ok t ∧ detachedFrom (readSigAt n) (t ++ [10]) = .ok (detachedOf s) := by
  have hp : placed n 0 (detachedOf s).packets :=
    ⟨_, rfl, ⟨by simp [validTag, Body.tag], rfl, by simp only [readableLen]; omega⟩, rfl, ⟨hw, hv⟩, trivial⟩
  obtain ⟨t, h1, h2⟩ := armored_lf n (detachedOf s) (show 1 ≤ 6 by decide) (show 6 ≤ 6 by decide) versionCc_good hp (by simp [detachedOf])
  refine ⟨t, h1, ?_⟩
  rw [detachedFrom, h2, Out.ok_bind]
  rfl

/-- A message printed in armor that is not a compressed packet. -/
theorem message_printed (n : Nat) (z : Zip) (depth : Nat) (hs : List (Bytes × Bytes)) (hh : ∀ h ∈ hs, goodHeader h) (ps : List (Pkt (SigAt n)))
    (hp : placed n 0 ps) (hg : messageMeaningful (ps.map (·.body.tag)) = .ok true) (hc : ∀ p ∈ ps, p.body.tag ≠ 8) (hne : ps ≠ []) :
    ∃ t, writeMsg z (rawAt n) hs ⟨none, ps⟩ .yes = .ok t ∧ Msg.ofString z (readSigAt n) depth (t ++ [10]) = .ok ⟨none, ps⟩ := by
  obtain ⟨t, h1, h2⟩ := armored_lf n ⟨true, 1, hs, ps⟩ (show 1 ≤ 1 by decide) (show 1 ≤ 6 by decide) hh hp hne
  refine ⟨t, ?_, ?_⟩
  · rw [writeObj] at h1
    obtain ⟨d, g1, g2⟩ := Out.bind_eq_ok.mp h1
    simp only [writeMsg, Msg.raw, g1, Out.ok_bind]
    exact g2
  · rw [Msg.ofString, h2, Out.ok_bind]
    simp only [hg, Out.ok_bind, Bool.not_true, Bool.false_eq_true, if_false]
    split
    · exact absurd rfl (hc _ (List.mem_singleton.mpr rfl))
    · rfl

end OpenPGP.Cli
