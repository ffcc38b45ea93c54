import Verif.Model.Tag5
import Verif.Lemmas.KeyPkt
import Verif.Lemmas.S2K
import Verif.Props.C17

namespace OpenPGP

theorem readAllMPIs_at {data : Bytes} (l : List Nat) : ∀ (fuel pos : Nat), pos ≤ data.length →
    data.drop pos = writeMPIs l → (∀ a ∈ l, bitsize a ≤ 65528) → l.length < fuel →
    readAllMPIs data fuel pos = .ok l := by
  induction l with
  | nil =>
    intro fuel pos hp hd _ hf
    obtain ⟨f, rfl⟩ : ∃ f, fuel = f + 1 := ⟨fuel - 1, by simp at hf; omega⟩
    have : data.length ≤ pos := by
      have := congrArg List.length hd
      simp [writeMPIs] at this; omega
    rw [readAllMPIs, if_neg (by omega)]
  | cons a l ih =>
    intro fuel pos hp hd hb hf
    obtain ⟨f, rfl⟩ : ∃ f, fuel = f + 1 := ⟨fuel - 1, by simp at hf; omega⟩
    have hd' : data.drop pos = mpiOctets a ++ writeMPIs l := by rw [hd]; simp [writeMPIs]
    have hlt : pos < data.length := by
      have := congrArg List.length hd'
      simp at this; omega
    have h1 := readMPI_at hd' (hb a (by simp))
    rw [readAllMPIs, if_pos hlt, h1, Out.ok_bind]
    dsimp only
    rw [ih f _ (by have := le_of_drop hp hd'; omega) (drop_add_of hd') (fun x hx => hb x (by simp [hx])) (by simp at hf; omega)]
    rfl

theorem writeMPIs_length_ge (l : List Nat) : l.length ≤ (writeMPIs l).length := by
  induction l with
  | nil => simp
  | cons a l ih =>
    have : writeMPIs (a :: l) = mpiOctets a ++ writeMPIs l := by simp [writeMPIs]
    rw [this, List.length_append, List.length_cons, mpiOctets_length]; omega

theorem readAllMPIs_write (l : List Nat) (h : ∀ a ∈ l, bitsize a ≤ 65528) :
    readAllMPIs (writeMPIs l) ((writeMPIs l).length + 1) 0 = .ok l :=
  readAllMPIs_at l _ 0 (by omega) (by simp) h (by have := writeMPIs_length_ge l; omega)

namespace Tag5

/-- The checksum size used when decrypting. -/
def hashSize (t : Tag5) : Nat := if t.s2kCon = 254 then 20 else 2

theorem checkAndParse_eq (cr : Crypto) (t : Tag5) (m sum : Bytes) (hs : sum.length = t.hashSize) :
    checkAndParse cr t (m ++ sum) = (decryptChecksum cr t m >>= fun c =>
      if c ≠ sum then .ok [] else readAllMPIs m (m.length + 1) 0) := by
  have hsub : subSz (m ++ sum).length t.hashSize = m.length := by
    rw [subSz, List.length_append, if_pos (by omega)]; omega
  change ((substr (m ++ sum) (subSz (m ++ sum).length t.hashSize) t.hashSize) >>= fun given =>
    (substr (m ++ sum) 0 (subSz (m ++ sum).length t.hashSize)) >>= fun keys =>
      decryptChecksum cr t keys >>= fun c => if c ≠ given then .ok [] else readAllMPIs keys (keys.length + 1) 0) = _
  rw [hsub, substr_drop (m := sum) (rest := []) (by simp) (by simp) hs, Out.ok_bind,
    substr_drop (m := m) (rest := sum) (by simp) (by simp) rfl, Out.ok_bind]

theorem checkAndParse_short (cr : Crypto) (t : Tag5) (p : Bytes) (h : p.length < t.hashSize) (hl : p.length + t.hashSize < 2 ^ 64) :
    checkAndParse cr t p = .throw := by
  change ((substr p (subSz p.length t.hashSize) t.hashSize) >>= fun given =>
    (substr p 0 (subSz p.length t.hashSize)) >>= fun keys =>
      decryptChecksum cr t keys >>= fun c => if c ≠ given then .ok [] else readAllMPIs keys (keys.length + 1) 0) = _
  rw [substr, if_pos (by rw [subSz, if_neg (by omega)]; omega)]
  rfl

/-- Reading back a secret key packet, given that its public part is read back. -/
theorem actualRead_at (t : Tag5) {data raw : Bytes} {pos : Nat} {rest : Bytes}
    (hk : ∀ r, data.drop pos = t.key.rawCommon ++ r →
      KeyPkt.readCommon data pos = .ok (t.key, pos + t.key.rawCommon.length))
    (h0 : t.s2kCon = 0 → t.iv = [])
    (hs : if hasS2K t.s2kCon then ∃ s, t.s2k = some s ∧ s.wf else t.sym = t.s2kCon ∧ t.s2k = none)
    (hiv : t.s2kCon ≠ 0 → blockLen t.sym = some t.iv.length)
    (hraw : t.raw = .ok raw) (hd : data.drop pos = raw ++ rest) :
    actualRead data pos raw.length = .ok (t, pos + raw.length) := by
  obtain ⟨key, con, sym, s2k, iv, secret⟩ := t
  simp only at hk h0 hs hiv
  have hivEq : (if con ≠ 0 then iv else []) = iv := by
    split
    · rfl
    · rename_i h; rw [h0 (by simpa using h)]
  by_cases hc : hasS2K con = true
  · rw [if_pos hc] at hs
    obtain ⟨s, rfl, hw⟩ := hs
    have hcon : con ≠ 0 := by rintro rfl; simp [hasS2K] at hc
    have hr : raw = key.rawCommon ++ ([con] ++ ([sym] ++ (s.raw ++ (iv ++ secret)))) := by
      rw [Tag5.raw, protectionOctets, if_pos hc] at hraw
      simp only [Out.ok_bind] at hraw
      rw [ Out.pure_eq, hivEq] at hraw
      rw [← Out.ok.inj hraw]; simp
    rw [hr] at hd
    simp only [List.append_assoc] at hd
    have hlen := congrArg List.length hr
    simp only [List.length_append, List.length_singleton] at hlen
    have hp : pos ≤ data.length := by
      by_contra hcon'
      rw [List.drop_eq_nil_of_le (by omega)] at hd
      have := congrArg List.length hd
      simp at this
    have hd1 := drop_add_of hd
    have hp1 := le_of_drop hp hd
    have hd2 := drop_field hd1 (n := 1) rfl
    have hp2 : pos + key.rawCommon.length + 1 ≤ data.length := le_of_drop hp1 hd1
    have hd3 := drop_field hd2 (n := 1) rfl
    have hp3 := le_of_drop hp2 hd2
    have hd4 := drop_add_of hd3
    have hp4 := le_of_drop hp3 hd3
    have hd5 := drop_add_of hd4
    have hp5 := le_of_drop hp4 hd4
    simp only [List.length_singleton] at hp3 hp4 hp5
    rw [actualRead, hk _ hd, Out.ok_bind]
    dsimp only
    rw [charAt_drop hd1, Out.ok_bind, readProtection, if_pos hc, charAt_drop hd2, Out.ok_bind, S2K.read_at s hw hd3,
      Out.ok_bind]
    dsimp only
    rw [Out.pure_eq, Out.ok_bind]
    dsimp only
    rw [readIV, if_pos hcon, hiv hcon, mapAt, Out.ok_bind, substr_drop hp4 hd4 rfl, Out.ok_bind]
    rw [substr_drop hp5 hd5 (by rw [subSz, if_pos (by omega)]; omega), Out.ok_bind, Out.pure_eq]
  · rw [if_neg hc] at hs
    obtain ⟨rfl, rfl⟩ := hs
    have hr : raw = key.rawCommon ++ ([sym] ++ (iv ++ secret)) := by
      rw [Tag5.raw, protectionOctets, if_neg hc] at hraw
      simp only [Out.ok_bind] at hraw
      rw [ Out.pure_eq, hivEq] at hraw
      rw [← Out.ok.inj hraw]; simp
    rw [hr] at hd
    simp only [List.append_assoc] at hd
    have hlen := congrArg List.length hr
    simp only [List.length_append, List.length_singleton] at hlen
    have hp : pos ≤ data.length := by
      by_contra hcon'
      rw [List.drop_eq_nil_of_le (by omega)] at hd
      have := congrArg List.length hd
      simp at this
    have hd1 := drop_add_of hd
    have hp1 := le_of_drop hp hd
    have hd2 := drop_field hd1 (n := 1) rfl
    have hp2 : pos + key.rawCommon.length + 1 ≤ data.length := le_of_drop hp1 hd1
    have hd3 := drop_add_of hd2
    have hp3 := le_of_drop hp2 hd2
    rw [actualRead, hk _ hd, Out.ok_bind]
    dsimp only
    rw [charAt_drop hd1, Out.ok_bind, readProtection, if_neg hc, Out.ok_bind]
    dsimp only
    have hIV : readIV data sym sym (pos + key.rawCommon.length + 1) = .ok iv := by
      rw [readIV]
      split
      · rename_i h
        rw [hiv h, mapAt, Out.ok_bind, substr_drop hp2 hd2 rfl]
      · rename_i h; rw [h0 (by simpa using h)]
    rw [hIV, Out.ok_bind, substr_drop hp3 hd3 (by rw [subSz, if_pos (by omega)]; omega), Out.ok_bind, Out.pure_eq]

theorem raw_length_ne {t : Tag5} {raw : Bytes} (h : t.raw = .ok raw) : raw.length ≠ 0 := by
  rw [Tag5.raw, Out.bind_eq_ok] at h
  obtain ⟨m, -, h⟩ := h
  rw [← Out.ok.inj h]; simp

end Tag5
end OpenPGP
