import Verif.Model.Tag2
import Verif.Lemmas.Subpacket

namespace OpenPGP
variable {E : Type}

theorem readMPIs_at {data : Bytes} (l : List Nat) : ∀ {pos : Nat} {rest : Bytes},
    data.drop pos = writeMPIs l ++ rest → (∀ a ∈ l, bitsize a ≤ 65528) →
    readMPIs data l.length pos = .ok (l, pos + (writeMPIs l).length) := by
  induction l with
  | nil => intro pos rest _ _; rfl
  | cons a l ih =>
    intro pos rest hd hb
    have hd' : data.drop pos = mpiOctets a ++ (writeMPIs l ++ rest) := by
      rw [hd]; simp [writeMPIs]
    have h1 := readMPI_at hd' (hb a (by simp))
    have h2 := ih (drop_add_of hd') (fun x hx => hb x (by simp [hx]))
    rw [List.length_cons, readMPIs, h1]
    simp only [Out.ok_bind]
    rw [h2]
    simp [writeMPIs, Nat.add_assoc]

/-- A run of fields read one after the other. -/
theorem drop_field {data : Bytes} {pos n : Nat} {m rest : Bytes} (hd : data.drop pos = m ++ rest) (hn : m.length = n) :
    data.drop (pos + n) = rest := hn ▸ drop_add_of hd

/-- Version 4 signatures with fields of the prescribed sizes. -/
structure Tag2.okV4 (readE : Bytes → Out E) (rawE : E → Bytes) (s : Tag2 E) : Prop where
  version : s.version = 4
  left16 : s.left16.length = 2
  mpiCount : s.mpi.length = if s.pka = 17 then 2 else 1
  mpiSize : ∀ a ∈ s.mpi, bitsize a ≤ 65528
  hashed : ∀ x ∈ s.hashed, x.body.survives readE rawE
  unhashed : ∀ x ∈ s.unhashed, x.body.survives readE rawE
  hashedLen : (writeSubpackets rawE s.hashed).length < 65536
  unhashedLen : (writeSubpackets rawE s.unhashed).length < 65536
  time : s.time = 0
  keyid : s.keyid = []

theorem sub_raw_lt {rawE : E → Bytes} {l : List (Sub E)} {n : Nat} (h : (writeSubpackets rawE l).length < n) :
    ∀ x ∈ l, (x.body.raw rawE).length + 1 < n := by
  induction l with
  | nil => simp
  | cons a l ih =>
    have e : writeSubpackets rawE (a :: l) = a.write rawE ++ writeSubpackets rawE l := by simp [writeSubpackets]
    rw [e, List.length_append] at h
    have h0 : (a.body.raw rawE).length + 1 < (a.write rawE).length := by
      have : 0 < (subLengthOctets ((a.body.raw rawE).length + 1)).length :=
        List.length_pos_iff.mpr (subLengthOctets_ne_nil _)
      simp only [Sub.write, List.length_append, List.length_cons]; omega
    intro x hx
    rcases List.mem_cons.mp hx with rfl | hx
    · omega
    · exact ih (by omega) x hx

theorem readV4_at (readE : Bytes → Out E) (rawE : E → Bytes) (s : Tag2 E) (hs : s.okV4 readE rawE)
    {data : Bytes} {pos : Nat} {rest : Bytes} (hd : data.drop pos = s.raw rawE ++ rest) :
    Tag2.readV4 readE data pos = .ok (s, pos + (s.raw rawE).length) := by
  obtain ⟨version, type, pka, hash, mpi, left16, time, keyid, hashed, unhashed⟩ := s
  obtain ⟨h1, h2, h3, h4, h5, h6, h7, h8, h9, h10⟩ := hs
  simp only at h1 h2 h3 h4 h5 h6 h7 h8 h9 h10
  subst h1 h9 h10
  set h := writeSubpackets rawE hashed with hh
  set u := writeSubpackets rawE unhashed with hu
  have hraw : Tag2.raw rawE (⟨4, type, pka, hash, mpi, left16, 0, [], hashed, unhashed⟩ : Tag2 E) =
      [4] ++ ([type] ++ ([pka] ++ ([hash] ++ (be 2 h.length ++ (h ++ (be 2 u.length ++ (u ++ (left16 ++ writeMPIs mpi)))))))) := by
    simp [Tag2.raw, hh, hu]
  rw [hraw] at hd ⊢
  simp only [List.append_assoc] at hd
  have hd1 := drop_add_of hd
  have hd2 := drop_add_of hd1
  have hd3 := drop_add_of hd2
  have hd4 := drop_add_of hd3
  simp only [List.length_singleton, Nat.add_assoc, Nat.reduceAdd] at hd1 hd2 hd3 hd4
  have hp : pos + 4 ≤ data.length := le_of_drop_cons hd3
  have hd5 := drop_field hd4 (be_length 2 _)
  have hp5 := le_of_drop hp hd4; rw [be_length] at hp5
  have hd6 := drop_field hd5 rfl
  have hp6 := le_of_drop hp5 hd5
  have hd7 := drop_field hd6 (be_length 2 _)
  have hp7 := le_of_drop hp6 hd6; rw [be_length] at hp7
  have hd8 := drop_field hd7 rfl
  have hp8 := le_of_drop hp7 hd7
  have hd9 := drop_field hd8 h2
  have hmpi := readMPIs_at mpi hd9 h4
  rw [h3] at hmpi
  rw [Tag2.readV4, charAt_drop hd1, Out.ok_bind, charAt_drop hd2, Out.ok_bind, charAt_drop hd3, Out.ok_bind]
  simp only
  rw [substr_drop hp hd4 (be_length 2 _), Out.ok_bind, toint256_be2 _ h7]
  rw [show h.length % 2 ^ 16 = h.length from Nat.mod_eq_of_lt h7]
  rw [substr_drop hp5 hd5 rfl, Out.ok_bind, hh, readSubpackets_write readE rawE hashed h5
    (fun x hx => by have := sub_raw_lt h7 x hx; omega), Out.ok_bind, ← hh]
  rw [substr_drop hp6 hd6 (be_length 2 _), Out.ok_bind, toint256_be2 _ h8]
  rw [show u.length % 2 ^ 16 = u.length from Nat.mod_eq_of_lt h8]
  rw [substr_drop hp7 hd7 rfl, Out.ok_bind, hu, readSubpackets_write readE rawE unhashed h6
    (fun x hx => by have := sub_raw_lt h8 x hx; omega), Out.ok_bind, ← hu]
  rw [substr_drop hp8 hd8 h2, Out.ok_bind, hmpi, Out.ok_bind]
  simp only [Out.pure_eq]
  congr 2
  simp only [List.length_append, List.length_singleton, be_length, h2]
  omega

theorem readAt_v4 (readE : Bytes → Out E) (rawE : E → Bytes) (s : Tag2 E) (hs : s.okV4 readE rawE)
    {data : Bytes} {pos : Nat} {rest : Bytes} {part : Bool} (hd : data.drop pos = s.raw rawE ++ rest) :
    Tag2.readAt readE ⟨data, pos, (s.raw rawE).length, part⟩ = .ok s := by
  have hne : s.raw rawE = 4 :: (s.raw rawE).tail := by
    simp [Tag2.raw, hs.version]
  have hl : (s.raw rawE).length ≠ 0 := by rw [hne]; simp
  rw [hne] at hd
  have hc := charAt_drop hd
  rw [← hne] at hd
  simp only [Tag2.readAt, tagRead, Tag2.actualRead]
  rw [if_neg hl, hc, Out.ok_bind, if_neg (by decide), if_pos rfl, readV4_at readE rawE s hs hd]
  simp

/-- Version 3 signatures with fields of the prescribed sizes. -/
structure Tag2.okV3 (s : Tag2 E) : Prop where
  version : s.version = 3
  left16 : s.left16.length = 2
  pka : isRSA s.pka = true ∨ s.pka = 17
  mpiCount : s.mpi.length = if s.pka = 17 then 2 else 1
  mpiSize : ∀ a ∈ s.mpi, bitsize a ≤ 65528
  time : s.time < 2 ^ 32
  keyid : s.keyid.length = 8
  hashed : s.hashed = []
  unhashed : s.unhashed = []

theorem readV3_at (rawE : E → Bytes) (s : Tag2 E) (hs : s.okV3) (rest : Bytes) :
    Tag2.readV3 (E := E) (s.raw rawE ++ rest) 0 = .ok (s, (s.raw rawE).length) := by
  obtain ⟨version, type, pka, hash, mpi, left16, time, keyid, hashed, unhashed⟩ := s
  obtain ⟨h1, h2, hp, h3, h4, h5, h6, h7, h8⟩ := hs
  simp only at h1 h2 hp h3 h4 h5 h6 h7 h8
  subst h1 h7 h8
  have hraw : Tag2.raw rawE (⟨3, type, pka, hash, mpi, left16, time, keyid, [], []⟩ : Tag2 E) =
      [3] ++ ([5] ++ ([type] ++ (be 4 time ++ (keyid ++ ([pka] ++ ([hash] ++ (left16 ++ writeMPIs mpi))))))) := by
    simp [Tag2.raw]
  rw [hraw]
  generalize hdata : ([3] ++ ([5] ++ ([type] ++ (be 4 time ++ (keyid ++ ([pka] ++ ([hash] ++ (left16 ++ writeMPIs mpi))))))) ++ rest : Bytes) = data
  have hd : data.drop 0 = [3] ++ ([5] ++ ([type] ++ (be 4 time ++ (keyid ++ ([pka] ++ ([hash] ++ (left16 ++ (writeMPIs mpi ++ rest)))))))) := by
    rw [← hdata]; simp
  have hd1 := drop_add_of hd
  have hd2 := drop_add_of hd1
  have hd3 := drop_add_of hd2
  have hd4 := drop_field hd3 (be_length 4 _)
  have hd5 := drop_field hd4 h6
  have hd6 := drop_add_of hd5
  have hd7 := drop_add_of hd6
  have hd8 := drop_field hd7 h2
  simp only [List.length_singleton, Nat.zero_add, Nat.reduceAdd] at hd1 hd2 hd3 hd4 hd5 hd6 hd7 hd8
  have p3 : 3 ≤ data.length := le_of_drop_cons hd2
  have p7 : 7 ≤ data.length := by have := le_of_drop p3 hd3; rwa [be_length] at this
  have p17 : 17 ≤ data.length := le_of_drop_cons hd6
  have hmpi := readMPIs_at mpi hd8 h4
  rw [Tag2.readV3, charAt_drop (pos := 0 + 1) hd1, Out.ok_bind, if_neg (by decide)]
  rw [charAt_drop (pos := 0 + 2) hd2, Out.ok_bind, substr_drop (pos := 0 + 3) p3 hd3 (be_length 4 _), Out.ok_bind,
    substr_drop (pos := 0 + 7) p7 hd4 h6, Out.ok_bind, if_neg (by omega),
    charAt_drop (pos := 0 + 15) hd5, Out.ok_bind, charAt_drop (pos := 0 + 16) hd6, Out.ok_bind,
    substr_drop (pos := 0 + 17) p17 hd7 h2, Out.ok_bind, toint256_be4 _ h5,
    show time % 2 ^ 32 = time from Nat.mod_eq_of_lt h5]
  have hlen : 19 + (writeMPIs mpi).length =
      ([3] ++ ([5] ++ ([type] ++ (be 4 time ++ (keyid ++ ([pka] ++ ([hash] ++ (left16 ++ writeMPIs mpi))))))) : Bytes).length := by
    simp only [List.length_append, List.length_singleton, be_length, h6, h2]; omega
  by_cases h17 : pka = 17
  · subst h17
    rw [if_pos rfl] at h3
    rw [h3] at hmpi
    rw [if_neg (by decide), if_pos rfl, hmpi, Out.ok_bind, ← hlen]
    rfl
  · rw [if_neg h17] at h3
    rw [h3] at hmpi
    rw [if_pos (hp.resolve_right h17), hmpi, Out.ok_bind, ← hlen]
    rfl

end OpenPGP
