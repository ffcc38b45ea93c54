import Verif.Lemmas.Packets

/-!
# C13: one-pass signature, data, marker, literal, trust, user ID, user attribute, MDC and private packets survive
-/
namespace OpenPGP

/-- The simple packets with fields of the sizes RFC 4880 prescribes (section 5.4, 5.6 - 5.11, 5.13, 5.14). -/
def Body.simpleWf {E : Type} : Body E → Prop
  | .onePass t => t.version = 3 ∧ t.keyid.length = 8
  | .compressed _ _ => True
  | .symEnc _ => True
  | .marker p => p ≠ []
  | .literal t => t.filename.length < 256 ∧ t.time < 2 ^ 32
  | .trust _ => True
  | .userId _ => True
  | .seip _ _ => True
  | .mdc _ => True
  | .priv n _ => n < 4
  | _ => False

/-- Each of the simple packets is written without error, and what was written is read back, wherever it stands, as the
same object: every field is restored. -/
theorem C13_simple {E : Type} (readE : Bytes → Out E) (rawE : E → Bytes) (b : Body E) (h : b.simpleWf) :
    ∃ raw, b.raw rawE = .ok raw ∧ ∀ (data : Bytes) (pos : Nat) (rest : Bytes) (part : Bool), pos ≤ data.length →
      data.drop pos = raw ++ rest → Body.parse readE b.tag ⟨data, pos, raw.length, part⟩ = .ok b := by
  cases b with
  | onePass t => exact ⟨_, rfl, fun data pos rest part hp hd => by
      change Body.onePass <$> _ = _
      rw [Tag4.readAt_ok t h.1 h.2 hd]; rfl⟩
  | compressed c d => exact ⟨_, rfl, fun data pos rest part hp hd => by
      change (fun x : UInt8 × Bytes => Body.compressed x.1 x.2) <$> _ = _
      rw [tagRead_octetString hd]; rfl⟩
  | symEnc d => exact ⟨_, rfl, fun data pos rest part hp hd => by
      change Body.symEnc <$> _ = _
      rw [tagRead_string hp hd (fun _ => rfl)]; rfl⟩
  | marker p => exact ⟨_, rfl, fun data pos rest part hp hd => by
      change Body.marker <$> _ = _
      rw [tagRead_string hp hd (fun h0 => absurd h0 h)]; rfl⟩
  | literal t => exact ⟨_, rfl, fun data pos rest part hp hd => by
      change Body.literal <$> _ = _
      rw [Tag11.readAt_ok t h.1 h.2 hd]; rfl⟩
  | trust d => exact ⟨_, rfl, fun data pos rest part hp hd => by
      change Body.trust <$> _ = _
      rw [tagRead_string hp hd (fun _ => rfl)]; rfl⟩
  | userId d => exact ⟨_, rfl, fun data pos rest part hp hd => by
      change Body.userId <$> _ = _
      rw [tagRead_string hp hd (fun _ => rfl)]; rfl⟩
  | seip c d => exact ⟨_, rfl, fun data pos rest part hp hd => by
      change (fun x : UInt8 × Bytes => Body.seip x.1 x.2) <$> _ = _
      rw [tagRead_octetString hd]; rfl⟩
  | mdc d => exact ⟨_, rfl, fun data pos rest part hp hd => by
      change Body.mdc <$> _ = _
      rw [tagRead_string hp hd (fun _ => rfl)]; rfl⟩
  | priv n d => exact ⟨_, rfl, fun data pos rest part hp hd => by
      have hs := tagRead_string (fresh := []) (part := part) hp hd (fun _ => rfl)
      have : n = 0 ∨ n = 1 ∨ n = 2 ∨ n = 3 := by simp only [Body.simpleWf] at h; omega
      rcases this with rfl | rfl | rfl | rfl <;>
      · change Body.priv _ <$> _ = _
        rw [hs]; rfl⟩
  | pkesk _ | sig _ | skesk _ | secretKey _ | publicKey _ | secretSubkey _ | publicSubkey _ | userAttr _ => exact absurd h id

/-- A literal packet with a file name and text; a one-pass signature. -/
example : (Body.literal ⟨0x62, [97, 46, 116], 1500000000, [1, 2, 3]⟩ : Body Empty).simpleWf ∧
    (Body.onePass ⟨3, 0, 8, 1, [1, 2, 3, 4, 5, 6, 7, 8], 1⟩ : Body Empty).simpleWf := by
  exact ⟨⟨by decide, by decide⟩, rfl, rfl⟩

/-- A file name of 256 octets or more is written with a truncated length and is never read back. -/
theorem C13_long_filename_fails (t : Tag11) (hn : 256 ≤ t.filename.length) (data : Bytes) (pos length : Nat) (part : Bool) :
    tagRead Tag11.fresh Tag11.actualRead ⟨data, pos, length, part⟩ ≠ .ok t := by
  intro h
  rw [tagRead] at h
  split at h
  · rw [← Out.ok.inj h] at hn
    simp [Tag11.fresh] at hn
  · obtain ⟨⟨t', p⟩, h1, h2⟩ := Out.bind_eq_ok.mp h
    simp only at h2
    split at h2
    · simp at h2
    · rw [Out.ok.inj h2] at h1
      simp only [Tag11.actualRead] at h1
      obtain ⟨f, -, h1⟩ := Out.bind_eq_ok.mp h1
      obtain ⟨len, -, h1⟩ := Out.bind_eq_ok.mp h1
      obtain ⟨name, hname, h1⟩ := Out.bind_eq_ok.mp h1
      obtain ⟨tm, -, h1⟩ := Out.bind_eq_ok.mp h1
      obtain ⟨lit, -, h1⟩ := Out.bind_eq_ok.mp h1
      have ht : name = t.filename := by
        have := congrArg (fun x : Tag11 × Nat => x.1.filename) (Out.ok.inj h1)
        simpa using this
      rw [substr] at hname
      split at hname
      · simp at hname
      · have := congrArg List.length (Out.ok.inj hname)
        rw [ht, List.length_take] at this
        have := len.toNat_lt
        omega

/-- A marker packet of length 0 is read as the default marker "PGP", not as the empty one that was written. -/
theorem C13_empty_marker_fails {E : Type} (readE : Bytes → Out E) (data : Bytes) (pos : Nat) :
    Body.parse readE 10 ⟨data, pos, 0, false⟩ = .ok (.marker [80, 71, 80]) := rfl

/-- User attributes (images) are read back if the packet's body starts before an offset equal to the written size of the
last one. (Missing: other positions; other versions or encodings, which the writer cannot express.) -/
theorem C13_user_attribute_partial (l : List Attr) (h : ∀ a ∈ l, a.wf) (data : Bytes) (pos : Nat) (rest : Bytes)
    (hd : data.drop pos = Attr.rawList l ++ rest) (hpos : ∀ hne : l ≠ [], pos < (l.getLast hne).write.length) :
    tagRead [] Attr.readList ⟨data, pos, (Attr.rawList l).length, false⟩ = .ok l := by
  by_cases hne : l = []
  · subst hne; rfl
  · have hpos := hpos hne
    have hj : Attr.rawList l = joined Attr.write l := rfl
    have hsplit := congrArg List.length (joined_dropLast Attr.write l hne)
    rw [List.length_append] at hsplit
    have hge := joined_length_ge Attr.write l (fun a _ => a.write_ne_nil)
    have hl1 : 0 < l.length := List.length_pos_iff.mpr hne
    have hloop := untilLoop_ok (stop := (joined Attr.write l).length) l
      (fun a ha _ _ hd => Attr.readItem_at a (h a ha) hd) ((joined Attr.write l).length + 1) pos rest
      hd (by intro _; omega) (by omega) (by omega)
    rw [tagRead, if_neg (by rw [hj]; dsimp only; omega)]
    simp only [Attr.readList, hj, hloop, Out.ok_bind]
    simp

/-- An image of 30 octets, which starts at offset 2. -/
example : (⟨false, 1, 1, List.replicate 30 5⟩ : Attr).wf ∧ 2 < (⟨false, 1, 1, List.replicate 30 5⟩ : Attr).write.length := by
  exact ⟨⟨rfl, rfl, rfl, by decide⟩, by decide⟩

/-- Anywhere else in a packet stream (in every real key: the key packet comes first) a user attribute is unreadable. -/
theorem C13_user_attribute_stream_fails (l : List Attr) (h : ∀ a ∈ l, a.wf) (hne : l ≠ []) (data : Bytes) (pos : Nat)
    (rest : Bytes) (hd : data.drop pos = Attr.rawList l ++ rest) (hpos : (l.getLast hne).write.length ≤ pos) :
    tagRead [] Attr.readList ⟨data, pos, (Attr.rawList l).length, false⟩ = .throw := by
  have hj : Attr.rawList l = joined Attr.write l := rfl
  have hsplit := congrArg List.length (joined_dropLast Attr.write l hne)
  rw [List.length_append] at hsplit
  have hge := joined_length_ge Attr.write l (fun a _ => a.write_ne_nil)
  have hl1 : 0 < l.length := List.length_pos_iff.mpr hne
  have hw : 0 < (l.getLast hne).write.length := List.length_pos_iff.mpr (Attr.write_ne_nil _)
  obtain ⟨l', p, hloop, hp⟩ := untilLoop_early (stop := (joined Attr.write l).length) l
    (fun a ha _ _ hd => Attr.readItem_at a (h a ha) hd) ((joined Attr.write l).length + 1) pos rest
    hd hne (by omega) (by omega)
  rw [tagRead, if_neg (by rw [hj]; dsimp only; omega)]
  simp only [Attr.readList, hj, hloop, Out.ok_bind]
  rw [if_pos]
  simp only [Bool.true_and, bne_iff_ne, ne_eq]
  omega

/-- An image attribute of another version or encoding is written as version 1, encoding 1. -/
theorem C13_image_version_fails (a : Attr) (ha : a.version ≠ 1 ∨ a.encoding ≠ 1) :
    a.raw = (⟨a.critical, 1, 1, a.image⟩ : Attr).raw ∧ Attr.read a.raw ≠ a := by
  refine ⟨rfl, fun h => ?_⟩
  have hr : Attr.read a.raw = ⟨false, 1, 1, a.image⟩ := by
    rw [Attr.read, if_pos (by simp [Attr.raw])]
    simp [Attr.raw, List.replicate]
  rw [hr] at h
  rw [← h] at ha
  simp at ha

/-- A string packet whose declared length exceeds the input is accepted silently, with what there is. -/
theorem C13_truncated_accepted {E : Type} (readE : Bytes → Out E) (data : Bytes) (pos length : Nat) (hp : pos ≤ data.length)
    (hl : data.length < pos + length) :
    Body.parse readE 13 ⟨data, pos, length, false⟩ = .ok (.userId (data.drop pos)) := by
  change Body.userId <$> tagRead [] Body.readString _ = _
  rw [tagRead, if_neg (by dsimp only; omega)]
  have : (data.drop pos).take length = data.drop pos := List.take_of_length_le (by rw [List.length_drop]; omega)
  simp [Body.readString, substr, this, show ¬ data.length < pos by omega]

end OpenPGP
