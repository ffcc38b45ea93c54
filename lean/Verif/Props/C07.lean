import Verif.Lemmas.Partial
import Verif.Props.C06

/-!
# C07: partial body lengths are reassembled

False of the code in three ways: the reader moves past the last piece twice, the writer repeats the tag octet
in front of the last length, and bodies below 512 octets are refused by the writer.
-/
namespace OpenPGP
open Spec

/-- Reader: a packet in RFC 4880 partial form is reassembled to its body.  Missing: the position is left
`last.length` octets too far (so it is right only for an empty last piece), and last pieces of 8128..8383 octets (C05). -/
theorem C07_reader_partial (tag : Nat) (chunks : List (Nat × Bytes)) (last pre post : Bytes)
    (ht : tag < 64) (hne : chunks ≠ []) (hc : chunksOk chunks) (hl : last.length < 2 ^ 32)
    (hg : ¬ (8128 ≤ last.length ∧ last.length ≤ 8383)) :
    ∃ ctb, readPacketHeader (pre ++ rfcPartialPacket tag chunks last ++ post) pre.length
        = .ok (ctb, .new, tag, pre.length + 1) ∧
      readUnformatted .new ctb (pre ++ rfcPartialPacket tag chunks last ++ post) (pre.length + 1)
        = .ok (⟨partialBody chunks last, 0, (partialBody chunks last).length, true⟩,
            pre.length + (rfcPartialPacket tag chunks last).length + last.length) := by
  set data := pre ++ rfcPartialPacket tag chunks last ++ post with hdata
  have hd : data.drop pre.length = UInt8.ofNat (0xc0 ||| tag) ::
      (rfcChunks chunks ++ (newLengthOctets last.length 0 ++ (last ++ post))) := by
    rw [hdata, ctb_new tag ht, ← rfcNewLength_eq]; simp [rfcPartialPacket]
  refine ⟨_, newCtb tag ht data pre.length _ hd, ?_⟩
  have hd1 := drop_succ_of hd
  have hd2 := drop_add_of hd1
  obtain ⟨first, h1, h2, h3⟩ := newDefinite_at hd2 hl hg
  have hd3 := drop_add_of hd2
  obtain ⟨c, rest, hcr⟩ : ∃ c rest, newLengthOctets last.length 0 ++ (last ++ post) = c :: rest := by
    cases hx : newLengthOctets last.length 0 ++ (last ++ post) with
    | cons c rest => exact ⟨c, rest, rfl⟩
    | nil =>
      exfalso
      have h := (List.append_eq_nil_iff.mp hx).1
      rw [← rfcNewLength_eq] at h
      unfold rfcNewLength at h
      split_ifs at h
  rw [hcr] at hd1 hd2
  have hfc : first = c := by
    rw [charAt_drop hd2] at h1
    exact (Out.ok.inj h1).symm
  subst hfc
  have hlen2 : pre.length + 1 + (rfcChunks chunks).length + (newLengthOctets last.length 0).length ≤ data.length := by
    have hlen : data.length = pre.length + (1 + ((rfcChunks chunks).length + ((newLengthOctets last.length 0).length + last.length)) + post.length) := by
      simp [hdata, rfcPartialPacket, ← rfcNewLength_eq]; omega
    omega
  have hlast : substr data (pre.length + 1 + (rfcChunks chunks).length + (newLengthOctets last.length 0).length) last.length = .ok last :=
    substr_drop hlen2 hd3 rfl
  have := readUnformatted_partial (UInt8.ofNat (0xc0 ||| tag)) chunks hne hc data (pre.length + 1) first rest
    (by
      rcases h2 with h | h
      · rintro ⟨a, _⟩; exact absurd h (by simpa using a)
      · subst h; decide) hd1 _ _ _ h3 last hlast
  rw [this]
  congr 2
  simp [rfcPartialPacket, rfcNewLength_eq]; omega

/-- The position defect, in full: with a non-empty last piece the reader never ends at the end of the packet. -/
theorem C07_reader_position_fails (tag : Nat) (chunks : List (Nat × Bytes)) (last pre post : Bytes)
    (ht : tag < 64) (hne : chunks ≠ []) (hc : chunksOk chunks) (hl : last.length < 2 ^ 32)
    (hg : ¬ (8128 ≤ last.length ∧ last.length ≤ 8383)) (hlast : last ≠ []) :
    ∃ ctb s p, readPacketHeader (pre ++ rfcPartialPacket tag chunks last ++ post) pre.length
        = .ok (ctb, .new, tag, pre.length + 1) ∧
      readUnformatted .new ctb (pre ++ rfcPartialPacket tag chunks last ++ post) (pre.length + 1) = .ok (s, p) ∧
      p ≠ pre.length + (rfcPartialPacket tag chunks last).length := by
  obtain ⟨ctb, h1, h2⟩ := C07_reader_partial tag chunks last pre post ht hne hc hl hg
  refine ⟨ctb, _, _, h1, h2, ?_⟩
  have : 0 < last.length := List.length_pos_iff.mpr hlast
  omega

/-- Concrete case of `C07_reader_partial`: one chunk of two octets and a last piece of one. -/
example : chunksOk [(1, [7, 8])] ∧ rfcPartialPacket 11 [(1, [7, 8])] [9] = [0xcb, 0xe1, 7, 8, 1, 9] ∧
    partialBody [(1, [7, 8])] [9] = [7, 8, 9] := ⟨by simp [chunksOk], by decide, by decide⟩

/-- The writer refuses bodies below 512 octets. -/
theorem C07_writer_short_throws (tag : Nat) (body : Bytes) (h : body.length < 512) :
    writeNewLength tag body true = .throw := by
  simp [writeNewLength, writeNewPartial, h]

/-- What the writer emits and what the reader makes of it, for a packet standing last in the input: the octets `extra`
are added to the body, which are none exactly when the last piece is below 192 octets. -/
theorem writer_read (tag : Nat) (ht : canHavePartial tag = true) (body pre : Bytes) (hlo : 512 ≤ body.length)
    (hhi : body.length < 2 ^ 31) :
    ∃ enc ctb extra, writeNewLength tag body true = .ok enc ∧
      readPacketHeader (pre ++ enc) pre.length = .ok (ctb, .new, tag, pre.length + 1) ∧
      (∃ p, (pre ++ enc).length ≤ p ∧
        readUnformatted .new ctb (pre ++ enc) (pre.length + 1)
          = .ok (⟨body.take (body.length - body.length % 512) ++ extra ++ body.drop (body.length - body.length % 512), 0,
              body.length + extra.length, true⟩, p)) ∧
      extra.length = if body.length % 512 < 192 then 0 else 1 := by
  have htag : tag = 8 ∨ tag = 9 ∨ tag = 11 ∨ tag = 18 := by
    simp only [canHavePartial, Bool.or_eq_true, decide_eq_true_eq] at ht; omega
  have ht64 : tag < 64 := by omega
  set r := body.length % 512 with hr
  have hs := setBits_sum body.length hhi
  have hsle : ((setBits body.length).map (2 ^ ·)).sum ≤ body.length := by omega
  obtain ⟨w1, w2, w3⟩ := writeChunks_eq (setBits body.length) body (fun b hb => (setBits_range _ b hb).2) hsle
  have hsum : ((setBits body.length).map (2 ^ ·)).sum = body.length - r := by omega
  rw [hsum] at w1 w3
  set chunks := mkChunks (setBits body.length) body with hch
  have hcne : chunks ≠ [] := mkChunks_ne_nil _ _ (setBits_ne_nil _ hhi hlo)
  set rest := body.drop (body.length - r) with hrest
  have hrl : rest.length = r := by simp [hrest]; omega
  have hr512 : r < 512 := by omega
  set ctb := UInt8.ofNat (0xc0 ||| tag) with hctb
  have henc : writeNewLength tag body true = .ok (ctb :: (rfcChunks chunks ++ (ctb :: (newLengthOctets r 0 ++ rest)))) := by
    have : rest.take r = rest := List.take_of_length_le (by omega)
    simp only [writeNewLength, writeNewPartial, if_true]
    rw [if_neg (by omega), w1]
    simp only [← hr, this, writeNewDefinite, hrl]
    rfl
  set data := pre ++ ctb :: (rfcChunks chunks ++ (ctb :: (newLengthOctets r 0 ++ rest))) with hdata
  have hd : data.drop pre.length = ctb :: (rfcChunks chunks ++ (ctb :: (newLengthOctets r 0 ++ rest))) := by
    rw [hdata, List.drop_left]
  have hd1 := drop_succ_of hd
  have hd2 := drop_add_of hd1
  have hctbv : ctb.toNat = 192 + tag := by
    rw [hctb, ctb_new tag ht64, UInt8.toNat_ofNat']; omega
  have c1 : ¬ ctb < 192 := by rw [UInt8.lt_iff_toNat_lt, hctbv]; simp
  have c2 : ctb < 223 := by rw [UInt8.lt_iff_toNat_lt, hctbv]; simp only [UInt8.reduceToNat]; omega
  have c3 : ¬ (224 ≤ ctb ∧ ctb ≤ 254) := by
    rintro ⟨a, _⟩
    rw [UInt8.le_iff_toNat_le, hctbv] at a
    simp only [UInt8.reduceToNat] at a; omega
  -- the octet behind the repeated tag octet, and what comes after it
  obtain ⟨h1, extra, hx, hxl⟩ : ∃ (h1 : UInt8) (extra : Bytes), newLengthOctets r 0 = h1 :: extra ∧
      extra.length = if r < 192 then 0 else 1 := by
    rw [← rfcNewLength_eq]
    unfold rfcNewLength
    by_cases hlt : r < 192
    · rw [if_pos hlt]; exact ⟨_, [], rfl, by simp [hlt]⟩
    · rw [if_neg hlt, if_pos (by omega)]; exact ⟨_, [_], rfl, by simp [hlt]⟩
  rw [hx] at hd2
  simp only [List.cons_append] at hd2
  set p := pre.length + 1 + (rfcChunks chunks).length with hp
  have hd3 := drop_succ_of hd2
  have hd4 := drop_succ_of hd3
  have hnd : newDefinite data p ctb = .ok (p + 2, tag * 256 + h1.toNat + 192, p + 2 + (tag * 256 + h1.toNat + 192)) := by
    simp only [newDefinite, if_neg c1, if_pos c2, readTwoOctet, charAt_drop hd2, charAt_drop hd3, Out.ok_bind,
      Out.pure_eq, hctbv]
    rw [show 192 + tag - 192 = tag by omega]
  have hlen : data.length = p + 2 + (extra.length + r) := by
    rw [hdata, hx, hp]
    simp [hrl]; omega
  have hxle : extra.length ≤ 1 := by rw [hxl]; split <;> omega
  have hlast : substr data (p + 2) (tag * 256 + h1.toNat + 192) = .ok (extra ++ rest) := by
    rw [substr, if_neg (by omega)]
    have : data.drop (p + 2) = extra ++ rest := hd4
    rw [this, List.take_of_length_le]
    simp [hrl]; omega
  have hread := readUnformatted_partial ctb chunks hcne w2 data (pre.length + 1) ctb _ c3 hd1 _ _ _ hnd _ hlast
  refine ⟨_, ctb, extra, henc, newCtb tag ht64 data pre.length _ hd, ⟨p + 2 + (tag * 256 + h1.toNat + 192) + (tag * 256 + h1.toNat + 192), ?_, ?_⟩, hxl⟩
  · rw [← hdata, hlen]; omega
  · rw [← hdata, hread, w3]
    have e : (body.take (body.length - r) ++ (extra ++ rest)).length = body.length + extra.length := by
      simp [hrl]; omega
    rw [e, List.append_assoc]

/-- Writer then reader: works for a packet standing last in the input whose length modulo 512 is below 192.
Missing: all other lengths (`C07_writer_fails`), and packets that follow. -/
theorem C07_writer_partial (tag : Nat) (ht : canHavePartial tag = true) (body : Bytes)
    (hlo : 512 ≤ body.length) (hhi : body.length < 2 ^ 31) (hr : body.length % 512 < 192) :
    ∃ enc, writePacket .new tag true body = .ok enc ∧ readRaw opaqueBody enc = .ok [⟨.new, tag, body⟩] := by
  obtain ⟨enc, ctb, extra, h1, h2, ⟨p, hp, h3⟩, h4⟩ := writer_read tag ht body [] hlo hhi
  rw [if_pos hr] at h4
  have he : extra = [] := List.length_eq_zero_iff.mp h4
  subst he
  simp only [List.nil_append, List.append_nil, List.take_append_drop, List.length_nil, Nat.add_zero, Nat.zero_add] at h2 h3 hp
  refine ⟨enc, by simpa [writePacket] using h1, ?_⟩
  have hlen : 0 < enc.length := by
    cases enc with
    | nil => simp [readPacketHeader, charAt] at h2
    | cons a l => simp
  have hk : knownTag tag = true := by
    simp only [canHavePartial, Bool.or_eq_true, decide_eq_true_eq] at ht
    rcases ht with ((h | h) | h) | h <;> subst h <;> decide
  have hrp : readPacket opaqueBody enc 0 = .ok (⟨.new, tag, body⟩, p) := by
    simp only [readPacket, h2, Out.ok_bind, h3, ht, hk]
    simp [opaqueBody, substr]
  obtain ⟨n, hn⟩ : ∃ n, enc.length = n + 1 := ⟨enc.length - 1, by omega⟩
  rw [readRaw, readRawLoop, if_pos hlen, hrp, Out.ok_bind, hn]
  simp only
  rw [readRawLoop, if_neg (by omega)]
  rfl

/-- Writer then reader: a body whose length modulo 512 is at least 192 comes back one octet longer. -/
theorem C07_writer_fails (tag : Nat) (ht : canHavePartial tag = true) (body : Bytes)
    (hlo : 512 ≤ body.length) (hhi : body.length < 2 ^ 31) (hr : 192 ≤ body.length % 512) :
    ∃ enc ctb s p, writePacket .new tag true body = .ok enc ∧
      readPacketHeader enc 0 = .ok (ctb, .new, tag, 1) ∧
      readUnformatted .new ctb enc 1 = .ok (s, p) ∧ s.length = body.length + 1 := by
  obtain ⟨enc, ctb, extra, h1, h2, ⟨p, _, h3⟩, h4⟩ := writer_read tag ht body [] hlo hhi
  rw [if_neg (by omega)] at h4
  simp only [List.nil_append, List.length_nil, Nat.zero_add] at h2 h3
  exact ⟨enc, ctb, _, p, by simpa [writePacket] using h1, h2, h3, by simp [h4]⟩

example : 512 ≤ (List.replicate 600 (1 : UInt8)).length ∧ (List.replicate 600 (1 : UInt8)).length % 512 < 192 := by
  rw [List.length_replicate]; omega
example : 512 ≤ (List.replicate 1000 (1 : UInt8)).length ∧ 192 ≤ (List.replicate 1000 (1 : UInt8)).length % 512 := by
  rw [List.length_replicate]; omega

end OpenPGP
