import Verif.Lemmas.Packets

/-!
# C14: session key packets survive write and read

Symmetric-key packets survive everywhere (`C14_skesk`). Public-key packets survive exactly when they start before an
offset equal to the size of their last MPI (`C14_pkesk_partial`, `C14_pkesk_stream_fails`): a message to several
recipients cannot be read, because the reader compares its absolute position with the length of the body.
-/
namespace OpenPGP

/-- A symmetric-key encrypted session key packet with any version and cipher octet, any S2K specifier and any encrypted
session key (or none) is read back as the same object wherever it stands. -/
theorem C14_skesk (t : Tag3) (s : S2K) (hs : t.s2k = some s) (hw : s.wf) (he : t.esk ≠ some []) (data : Bytes)
    (pos : Nat) (rest : Bytes) (hd : data.drop pos = t.raw ++ rest) :
    Tag3.readAt ⟨data, pos, t.raw.length, false⟩ = .ok t :=
  Tag3.readAt_ok t ⟨⟨s, hs, hw⟩, he⟩ hd

/-- AES-256, iterated and salted, with an encrypted session key; at offset 2 of an input. -/
def c14Skesk : Tag3 := ⟨4, 9, some (.iterated 8 [1, 2, 3, 4, 5, 6, 7, 8] 96), some (List.replicate 33 7)⟩

example : Tag3.readAt ⟨[1, 1] ++ c14Skesk.raw ++ [5], 2, 46, false⟩ = .ok c14Skesk := by decide +kernel

/-- The fields of a public-key encrypted session key packet as RFC 4880 prescribes them. -/
def Tag1.wf (t : Tag1) : Prop :=
  t.version = 3 ∧ t.keyid.length = 8 ∧ t.mpi ≠ [] ∧ ∀ a ∈ t.mpi, bitsize a ≤ 65528

/-- A public-key encrypted session key packet that starts before the offset `2 + size of its last MPI` is read back as
the same object. (Missing: every other position.) -/
theorem C14_pkesk_partial (t : Tag1) (h : t.wf) (data : Bytes) (pos : Nat) (rest : Bytes)
    (hd : data.drop pos = t.raw ++ rest) (hpos : pos < (mpiOctets (t.mpi.getLast h.2.2.1)).length) :
    Tag1.readAt ⟨data, pos, t.raw.length, false⟩ = .ok t := by
  obtain ⟨h3, hk, hne, hb⟩ := h
  obtain ⟨hdm, he⟩ := Tag1.actualRead_eq t hk (length := t.raw.length) hd
  have hlen : t.raw.length = 10 + (writeMPIs t.mpi).length := by simp [Tag1.raw, hk]; omega
  have hj : writeMPIs t.mpi = joined mpiOctets t.mpi := rfl
  have hsplit := congrArg List.length (joined_dropLast mpiOctets t.mpi hne)
  rw [List.length_append] at hsplit
  have hge := joined_length_ge mpiOctets t.mpi (fun a _ => by simp [mpiOctets, be])
  have hloop := untilLoop_ok (stop := t.raw.length) t.mpi (Tag1.readMPI_item t.mpi hb) (t.raw.length + 1) (pos + 10) rest
    hdm (by intro _; rw [hlen, hj]; omega) (by rw [hlen, hj]; omega) (by rw [hlen, hj]; omega)
  rw [Tag1.readAt, tagRead, if_neg (by simp [hlen])]
  simp only [he, hloop, Out.ok_bind]
  rw [if_neg (by simp [hlen, hj]; omega)]
  obtain ⟨version, keyid, pka, mpi⟩ := t
  simp only at h3
  rw [h3]

/-- An ElGamal packet at the start of a message. -/
def c14Pkesk : Tag1 := ⟨3, [1, 2, 3, 4, 5, 6, 7, 8], 16, [2 ^ 100, 2 ^ 101]⟩

example : c14Pkesk.wf ∧ 2 < (mpiOctets (2 ^ 101)).length ∧
    Tag1.readAt ⟨[0xc1, 40] ++ c14Pkesk.raw, 2, 40, false⟩ = .ok c14Pkesk := by
  refine ⟨⟨rfl, rfl, by decide, by decide⟩, by decide, by decide +kernel⟩

/-- At every other position reading the packet throws: no message with a second such packet behind a first one of the
same key size can be read. -/
theorem C14_pkesk_stream_fails (t : Tag1) (h : t.wf) (data : Bytes) (pos : Nat) (rest : Bytes)
    (hd : data.drop pos = t.raw ++ rest) (hpos : (mpiOctets (t.mpi.getLast h.2.2.1)).length ≤ pos) :
    Tag1.readAt ⟨data, pos, t.raw.length, false⟩ = .throw := by
  obtain ⟨h3, hk, hne, hb⟩ := h
  obtain ⟨hdm, he⟩ := Tag1.actualRead_eq t hk (length := t.raw.length) hd
  have hlen : t.raw.length = 10 + (writeMPIs t.mpi).length := by simp [Tag1.raw, hk]; omega
  have hj : writeMPIs t.mpi = joined mpiOctets t.mpi := rfl
  have hsplit := congrArg List.length (joined_dropLast mpiOctets t.mpi hne)
  rw [List.length_append] at hsplit
  have hge := joined_length_ge mpiOctets t.mpi (fun a _ => by simp [mpiOctets, be])
  have h2 : 2 ≤ (mpiOctets (t.mpi.getLast hne)).length := by rw [mpiOctets_length]; omega
  obtain ⟨l', p, hloop, hp⟩ := untilLoop_early (stop := t.raw.length) t.mpi (Tag1.readMPI_item t.mpi hb) (t.raw.length + 1)
    (pos + 10) rest hdm hne (by rw [hlen, hj]; omega) (by rw [hlen, hj]; omega)
  rw [Tag1.readAt, tagRead, if_neg (by simp [hlen])]
  simp only [he, hloop, Out.ok_bind]
  rw [if_pos]
  simp only [Bool.true_and, bne_iff_ne, ne_eq, hlen, hj]
  omega

/-- Two copies of the packet above one after the other: the second starts at offset 44. -/
example : Tag1.readAt ⟨[0xc1, 40] ++ c14Pkesk.raw ++ [0xc1, 40] ++ c14Pkesk.raw, 44, 40, false⟩ = .throw := by
  decide +kernel

end OpenPGP
