import Verif.Model.Subpacket
import Verif.Lemmas.Framing

namespace OpenPGP
variable {E : Type}

/-- What the library needs of embedded signatures to read them back. -/
def EmbOk (readE : Bytes → Out E) (rawE : E → Bytes) (e : E) : Prop := rawE e ≠ [] ∧ readE (rawE e) = .ok e

/-- Subpackets whose fields have the sizes RFC 4880 prescribes, minus the two cases the reader loses
(notation data with a name or value, signature target with an empty hash). -/
def SubBody.survives (readE : Bytes → Out E) (rawE : E → Bytes) : SubBody E → Prop
  | .sigTime t => t < 2 ^ 32
  | .sigExpire t => t < 2 ^ 32
  | .keyExpire t => t < 2 ^ 32
  | .regex r => r.getLast? ≠ some 0
  | .revKey _ _ f => f.length = 20
  | .«notation» f m n => f.length = 4 ∧ m = [] ∧ n = []
  | .target _ _ s => s ≠ []
  | .embedded (some e) => EmbOk readE rawE e
  | _ => True

theorem stripNul_snoc (r : Bytes) (h : r.getLast? ≠ some 0) : SubBody.stripNul (r ++ [0]) = r := by
  unfold SubBody.stripNul
  rw [List.reverse_append, List.reverse_singleton, List.singleton_append, List.dropWhile_cons]
  simp only [beq_self_eq_true, if_true]
  rcases hr : r.reverse with _ | ⟨a, l⟩
  · have : r = [] := by simpa using hr
    subst this; rfl
  · have ha : a ≠ 0 := by
      intro ha; apply h
      rw [List.getLast?_eq_head?_reverse, hr, ha]; rfl
    rw [List.dropWhile_cons_of_neg (by simpa using ha), ← hr, List.reverse_reverse]

theorem boolOctet_head (b : Bool) : ((SubBody.boolOctet b).headD 0 != 0) = b := by
  cases b <;> rfl

theorem read_raw (readE : Bytes → Out E) (rawE : E → Bytes) (b : SubBody E) (h : b.survives readE rawE) :
    ∃ fresh, SubBody.default b.type = some fresh ∧ SubBody.read readE fresh (b.raw rawE) = .ok b := by
  cases b with
  | sigTime t =>
    refine ⟨_, rfl, ?_⟩
    simp only [SubBody.survives] at h
    rw [SubBody.read, if_neg (by intro hc; simpa [SubBody.raw] using congrArg List.length hc)]
    simp only [SubBody.actualRead, SubBody.raw]
    rw [toint256_be4 t h, Nat.mod_eq_of_lt h]
  | sigExpire t =>
    refine ⟨_, rfl, ?_⟩
    simp only [SubBody.survives] at h
    rw [SubBody.read, if_neg (by intro hc; simpa [SubBody.raw] using congrArg List.length hc)]
    simp only [SubBody.actualRead, SubBody.raw]
    rw [toint256_be4 t h, Nat.mod_eq_of_lt h]
  | keyExpire t =>
    refine ⟨_, rfl, ?_⟩
    simp only [SubBody.survives] at h
    rw [SubBody.read, if_neg (by intro hc; simpa [SubBody.raw] using congrArg List.length hc)]
    simp only [SubBody.actualRead, SubBody.raw]
    rw [toint256_be4 t h, Nat.mod_eq_of_lt h]
  | exportable b => exact ⟨_, rfl, by cases b <;> rfl⟩
  | revocable b => exact ⟨_, rfl, by cases b <;> rfl⟩
  | primary b => exact ⟨_, rfl, by cases b <;> rfl⟩
  | trust l a => exact ⟨_, rfl, rfl⟩
  | regex r =>
    refine ⟨_, rfl, ?_⟩
    rw [SubBody.read, if_neg (by simp [SubBody.raw])]
    simp only [SubBody.actualRead, SubBody.raw, stripNul_snoc r h]
  | revKey c p f =>
    refine ⟨_, rfl, ?_⟩
    simp only [SubBody.survives] at h
    rw [SubBody.read, if_neg (by simp [SubBody.raw])]
    simp [SubBody.actualRead, SubBody.raw, h, List.take_of_length_le (le_of_eq h)]
  | «notation» f m n =>
    obtain ⟨h1, rfl, rfl⟩ := h
    refine ⟨_, rfl, ?_⟩
    rw [SubBody.read, if_neg (by intro hc; have := congrArg List.length hc; simp [SubBody.raw] at this)]
    simp only [SubBody.actualRead, SubBody.raw, List.append_nil, List.length_nil]
    have l8 : (f ++ be 2 0 ++ be 2 0).length = 8 := by simp [h1]
    rw [if_pos (by omega), if_neg (by omega)]
    simp [← h1]
  | reason c w => exact ⟨_, rfl, rfl⟩
  | target p ha s =>
    refine ⟨_, rfl, ?_⟩
    simp only [SubBody.survives] at h
    have : 0 < s.length := List.length_pos_iff.mpr h
    rw [SubBody.read, if_neg (by simp [SubBody.raw])]
    simp [SubBody.actualRead, SubBody.raw, h]
  | embedded e =>
    cases e with
    | none => exact ⟨_, rfl, rfl⟩
    | some e =>
      refine ⟨_, rfl, ?_⟩
      rw [SubBody.read, if_neg (show ¬ SubBody.raw rawE (.embedded (some e)) = [] from h.1)]
      simp only [SubBody.actualRead, SubBody.raw]
      rw [show readE (rawE e) = .ok e from h.2]; rfl
  | placeholder s => exact ⟨_, rfl, by unfold SubBody.read SubBody.raw; split <;> simp_all [SubBody.actualRead]⟩
  | prefSym s => exact ⟨_, rfl, by unfold SubBody.read SubBody.raw; split <;> simp_all [SubBody.actualRead]⟩
  | issuer s => exact ⟨_, rfl, by unfold SubBody.read SubBody.raw; split <;> simp_all [SubBody.actualRead]⟩
  | prefHash s => exact ⟨_, rfl, by unfold SubBody.read SubBody.raw; split <;> simp_all [SubBody.actualRead]⟩
  | prefComp s => exact ⟨_, rfl, by unfold SubBody.read SubBody.raw; split <;> simp_all [SubBody.actualRead]⟩
  | keyServerPrefs s => exact ⟨_, rfl, by unfold SubBody.read SubBody.raw; split <;> simp_all [SubBody.actualRead]⟩
  | prefKeyServer s => exact ⟨_, rfl, by unfold SubBody.read SubBody.raw; split <;> simp_all [SubBody.actualRead]⟩
  | policy s => exact ⟨_, rfl, by unfold SubBody.read SubBody.raw; split <;> simp_all [SubBody.actualRead]⟩
  | keyFlags s => exact ⟨_, rfl, by unfold SubBody.read SubBody.raw; split <;> simp_all [SubBody.actualRead]⟩
  | signer s => exact ⟨_, rfl, by unfold SubBody.read SubBody.raw; split <;> simp_all [SubBody.actualRead]⟩
  | features s => exact ⟨_, rfl, by unfold SubBody.read SubBody.raw; split <;> simp_all [SubBody.actualRead]⟩

theorem type_lt (b : SubBody E) : b.type < 33 := by cases b <;> simp [SubBody.type]

theorem typeOctet (t : Nat) (ht : t < 33) (c : Bool) :
    (UInt8.ofNat (t + if c then 128 else 0) &&& 0x7f).toNat = t ∧
    (UInt8.ofNat (t + if c then 128 else 0) &&& 0x80 != 0) = c := by
  have : ∀ (t : Fin 33) (c : Bool), (UInt8.ofNat (t.val + if c then 128 else 0) &&& 0x7f).toNat = t.val ∧
    (UInt8.ofNat (t.val + if c then 128 else 0) &&& 0x80 != 0) = c := by decide
  exact this ⟨t, ht⟩ c

theorem readSubLength_at {data : Bytes} {pos n : Nat} {rest : Bytes}
    (hd : data.drop pos = subLengthOctets n ++ rest) (hn : n < 2 ^ 32) :
    readSubLength data pos = .ok (n, pos + (subLengthOctets n).length) := by
  unfold subLengthOctets at hd ⊢
  unfold readSubLength
  by_cases h1 : n < 192
  · rw [if_pos h1] at hd ⊢
    have hv : (UInt8.ofNat n).toNat = n := by rw [UInt8.toNat_ofNat']; omega
    rw [charAt_drop hd, Out.ok_bind, if_pos (by rw [UInt8.lt_iff_toNat_lt, hv]; exact h1)]
    simp [readOneOctet, charAt_drop hd, hv]
  · rw [if_neg h1] at hd ⊢
    by_cases h2 : n < 8383
    · rw [if_pos h2] at hd ⊢
      have hd1 := drop_succ_of hd
      have hv : (UInt8.ofNat ((n - 192) / 256 + 192)).toNat = (n - 192) / 256 + 192 := by
        rw [UInt8.toNat_ofNat']; omega
      have hv2 : (UInt8.ofNat (n - 192)).toNat = (n - 192) % 256 := by rw [UInt8.toNat_ofNat']
      rw [charAt_drop hd, Out.ok_bind, if_neg (by rw [UInt8.lt_iff_toNat_lt, hv]; simp),
        if_pos (by rw [UInt8.lt_iff_toNat_lt, hv]; simp only [UInt8.reduceToNat]; omega)]
      simp only [readTwoOctet, charAt_drop hd, charAt_drop hd1, Out.ok_bind, Out.pure_eq, hv, hv2]
      have e : ((n - 192) / 256 + 192 - 192) * 256 + (n - 192) % 256 + 192 = n := by omega
      rw [e]; rfl
    · rw [if_neg h2] at hd ⊢
      have hd1 := drop_succ_of hd
      have hl := le_of_drop_cons hd
      rw [charAt_drop hd, Out.ok_bind, if_neg (by decide), if_neg (by decide)]
      simp only [readFiveOctet]
      rw [substr_drop (n := 4) hl hd1 (be_length 4 n), Out.ok_bind, toint256_be4 n hn]
      simp

theorem subLengthOctets_ne_nil (n : Nat) : subLengthOctets n ≠ [] := by
  unfold subLengthOctets; split_ifs <;> simp

theorem sub_write_ne_nil (rawE : E → Bytes) (s : Sub E) : s.write rawE ≠ [] := by
  simp [Sub.write]

theorem readSubpacketsLoop_at (readE : Bytes → Out E) (rawE : E → Bytes) (l : List (Sub E))
    (h : ∀ s ∈ l, s.body.survives readE rawE) (hn : ∀ s ∈ l, (s.body.raw rawE).length + 1 < 2 ^ 32)
    (data : Bytes) (pos fuel : Nat) (hd : data.drop pos = writeSubpackets rawE l) (hf : l.length < fuel) :
    readSubpacketsLoop readE data fuel pos = .ok l := by
  induction l generalizing pos fuel with
  | nil =>
    cases fuel with
    | zero => simp at hf
    | succ fuel =>
      simp only [writeSubpackets, List.flatMap_nil, List.drop_eq_nil_iff] at hd
      simp [readSubpacketsLoop, show ¬ pos < data.length by omega]
  | cons s l ih =>
    cases fuel with
    | zero => simp at hf
    | succ fuel =>
      have hw : writeSubpackets rawE (s :: l) = s.write rawE ++ writeSubpackets rawE l := by
        simp [writeSubpackets]
      rw [hw] at hd
      have hlt : pos < data.length := by
        by_contra hc
        rw [List.drop_eq_nil_of_le (by omega)] at hd
        exact sub_write_ne_nil rawE s (List.append_eq_nil_iff.mp hd.symm).1
      have hnext := drop_add_of hd
      set tc := UInt8.ofNat (s.body.type + if s.critical then 128 else 0) with htc
      set r := s.body.raw rawE with hr
      have hd0 : data.drop pos = subLengthOctets (r.length + 1) ++ (tc :: (r ++ writeSubpackets rawE l)) := by
        rw [hd, Sub.write]; simp [hr, htc]
      have hlenw : (s.write rawE).length = (subLengthOctets (r.length + 1)).length + (r.length + 1) := by
        simp [Sub.write, hr]
      have h1 := readSubLength_at hd0 (hn s (by simp))
      have hd1 := drop_add_of hd0
      have hd2 := drop_succ_of hd1
      obtain ⟨t1, t2⟩ := typeOctet s.body.type (type_lt _) s.critical
      rw [← htc] at t1 t2
      obtain ⟨fresh, f1, f2⟩ := read_raw readE rawE s.body (h s (by simp))
      have hih := ih (fun x hx => h x (by simp [hx])) (fun x hx => hn x (by simp [hx]))
        (pos + (s.write rawE).length) fuel hnext (by simpa using hf)
      have e2 : subSz (r.length + 1) 1 = r.length := by simp [subSz]
      rw [readSubpacketsLoop, if_pos hlt, h1, Out.ok_bind]
      simp only
      rw [charAt_drop hd1, Out.ok_bind, t1, f1]
      simp only
      rw [substr_drop (le_of_drop_cons hd1) hd2 e2.symm, Out.ok_bind, hr, f2, Out.ok_bind]
      rw [show pos + (subLengthOctets (r.length + 1)).length + ((s.body.raw rawE).length + 1)
        = pos + (s.write rawE).length by rw [hlenw, hr]; omega]
      rw [hih, Out.ok_bind, t2]
      rfl

theorem writeSubpackets_length_ge (rawE : E → Bytes) (l : List (Sub E)) :
    l.length ≤ (writeSubpackets rawE l).length := by
  induction l with
  | nil => simp
  | cons s l ih =>
    have : 0 < (s.write rawE).length := List.length_pos_iff.mpr (sub_write_ne_nil rawE s)
    simp only [writeSubpackets, List.flatMap_cons, List.length_append, List.length_cons] at *
    omega

theorem readSubpackets_write (readE : Bytes → Out E) (rawE : E → Bytes) (l : List (Sub E))
    (h : ∀ s ∈ l, s.body.survives readE rawE) (hn : ∀ s ∈ l, (s.body.raw rawE).length + 1 < 2 ^ 32) :
    readSubpackets readE (writeSubpackets rawE l) = .ok l := by
  apply readSubpacketsLoop_at readE rawE l h hn _ 0 _ rfl
  have := writeSubpackets_length_ge rawE l
  omega

end OpenPGP
