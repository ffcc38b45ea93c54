import Verif.Props.C72
import Verif.Props.C59
import Verif.Props.C68
import Verif.Lemmas.Cfb
import Verif.Model.GpgValid

/-!
# C72: validity and session keys in the build with GPG_COMPATIBLE
-/
namespace OpenPGP
open Rfc Rfc6637

/-- A key of RFC 6637 is valid as long as its numbers are not counted ... -/
theorem C72_valid_key (g : GpgKey) (k : EcKey) (h : EcMembers g k) : g.valid false = .success := by
  have hv := h.1
  have hp := h.2.2.1
  rw [GpgKey.valid, hv, hp]
  cases k.alg <;> rfl

/-- ... and never when they are: writing such a key with a status and `check_mpi` always reports INVALID_MPI_COUNT. -/
theorem C72_valid_key_fails (g : GpgKey) (k : EcKey) (h : EcMembers g k) : g.valid true = .mpiCount := by
  have hv := h.1
  have hp := h.2.2.1
  rw [GpgKey.valid, hv, hp]
  cases k.alg <;> simp [Alg.id, isRSA] <;> decide

/-- Keys of other algorithms are judged as without the option. -/
theorem C72_valid_others (mpis : Bool) (g : GpgKey) (h : g.key.pka ≠ 22) : g.valid mpis = g.key.valid mpis := by
  have hn : gpgNamed g.key.pka = pkaNamed g.key.pka := by
    have : ∀ a : UInt8, a ≠ 22 → gpgNamed a = pkaNamed a := by
      intro a
      exact octet_all (P := fun a : UInt8 => a ≠ 22 → gpgNamed a = pkaNamed a) (by decide +kernel) a
    exact this _ h
  rw [GpgKey.valid, KeyPkt.valid, hn]

/-- **Signatures.** A signature is valid exactly if its fields are those RFC 4880 and RFC 6637 allow: two numbers for DSA, ECDSA and EdDSA, one for RSA. -/
theorem C72_signature_valid {E : Type} (regexOk : Bytes → Bool) (validE : E → Out Status) (s : Tag2 E) (h : s.pka = 19 ∨ s.pka = 22) (mpis : Bool) :
    s.gpgValid regexOk validE mpis = .ok .success ↔
      Tag2.valid regexOk validE false { s with pka := 17 } = .ok .success ∧ (mpis = true → s.mpi.length = 2) := by
  have hn : gpgNamed s.pka = true ∧ gpgCanSign s.pka = true := by rcases h with h | h <;> rw [h] <;> decide
  have h17 : pkaNamed 17 = true ∧ canSign 17 = true := by decide
  have hp : s.pka = 17 ∨ s.pka = 19 ∨ s.pka = 22 := Or.inr h
  rw [Tag2.gpgValid, Tag2.valid]
  simp only [hn.1, hn.2, h17.1, h17.2, if_pos hp]
  simp only [Bool.not_true, Bool.false_eq_true, if_false, false_and]
  by_cases hm : mpis = true ∧ s.mpi.length ≠ 2
  · have hm' : ¬ (mpis = true → s.mpi.length = 2) := fun f => hm.2 (f hm.1)
    simp only [hm', and_false, iff_false]
    intro hc
    split_ifs at hc <;> try (cases hc; done)
    all_goals
      obtain ⟨a, -, hc⟩ := Out.bind_eq_ok.mp hc
      split_ifs at hc with ha
      · exact ha (Out.ok.inj hc)
      · obtain ⟨b, -, hc⟩ := Out.bind_eq_ok.mp hc
        split_ifs at hc with hb
        all_goals first | exact hb (Out.ok.inj hc) | (cases Out.ok.inj hc; done) | exact absurd hm (by assumption)
  · have hm' : mpis = true → s.mpi.length = 2 := fun f => not_not.mp fun g => hm ⟨f, g⟩
    simp only [hm, if_false]
    exact ⟨fun x => ⟨x, hm'⟩, fun x => x.1⟩

/-- The second "MPI" that is read where the wrapped key is: it is said to end behind the packet. -/
theorem readMPI_wrapped {data rest : Bytes} {pos : Nat} {w : Bytes} (hw : w ≠ []) (hl : w.length ≤ 254)
    (hd : data.drop pos = [UInt8.ofNat w.length] ++ w ++ rest) :
    readMPI data pos = .throw ∨ ∃ a p, readMPI data pos = .ok (a, p) ∧ pos + 1 + w.length < p := by
  obtain ⟨c, w', rfl⟩ := List.exists_cons_of_ne_nil hw
  have h0 : data.drop pos = UInt8.ofNat (c :: w').length :: (c :: (w' ++ rest)) := by rw [hd]; simp
  have h1 := drop_succ_of h0
  have h2 := drop_succ_of h1
  have hle := le_of_drop_cons h1
  rw [readMPI, charAt_drop h0, Out.ok_bind, charAt_drop h1, Out.ok_bind]
  have hs : (UInt8.ofNat (c :: w').length).toNat = w'.length + 1 := by
    simp only [UInt8.toNat_ofNat', List.length_cons] at hl ⊢; omega
  have hc := c.toNat_lt
  simp only [hs]
  rw [substr_take (by omega), Out.ok_bind, rawtompi_eq]
  split
  · exact Or.inl rfl
  · refine Or.inr ⟨_, _, rfl, ?_⟩
    rw [roundUp8, Nat.mod_eq_of_lt (by simp only [List.length_cons] at hl; omega)]
    simp only [List.length_cons] at hl ⊢
    omega

/-- **Session keys for ECDH.** No session key packet of RFC 6637 can be read, wherever it stands: a message that is encrypted for an ECDH key cannot even be parsed. -/
theorem C72_session_throws (keyid : Bytes) (hk : keyid.length = 8) (point : Nat) (hp : bitsize point ≤ 65528) (w : Bytes) (hw : w ≠ []) (hl : w.length ≤ 254)
    (pre rest : Bytes) (part : Bool) :
    Tag1.readAt ⟨pre ++ sessionBody keyid point w ++ rest, pre.length, (sessionBody keyid point w).length, part⟩ = .throw := by
  set data := pre ++ sessionBody keyid point w ++ rest with hdata
  set L := (sessionBody keyid point w).length with hL
  have hlen : L = 10 + (mpiOctets point).length + 1 + w.length := by
    rw [hL, sessionBody]; simp [hk]; omega
  have hd0 : data.drop pre.length = 3 :: (keyid ++ ([18] ++ (mpiOctets point ++ ([UInt8.ofNat w.length] ++ w ++ rest)))) := by
    rw [hdata, List.append_assoc, List.drop_left, sessionBody]; simp
  have hd1 := drop_succ_of hd0
  have hl0 := le_of_drop_cons hd0
  have hd2 : data.drop (pre.length + 9) = 18 :: (mpiOctets point ++ ([UInt8.ofNat w.length] ++ w ++ rest)) := by
    have := drop_field hd1 hk
    simpa [Nat.add_assoc] using this
  have hd3 := drop_succ_of hd2
  have hd4 : data.drop (pre.length + 10 + (mpiOctets point).length) = [UInt8.ofNat w.length] ++ w ++ rest := drop_field hd3 rfl
  have hwp := List.length_pos_iff.mpr hw
  have hmp : 0 < (mpiOctets point).length := by rw [mpiOctets_length]; omega
  rw [Tag1.readAt, tagRead, if_neg (by simp only; omega)]
  simp only [Tag1.actualRead, charAt_drop hd0, Out.ok_bind, substr_drop hl0 hd1 hk, charAt_drop hd2]
  have key : untilLoop (readMPI data) L (L + 1) (pre.length + 10) = .throw ∨
      ∃ l p, untilLoop (readMPI data) L (L + 1) (pre.length + 10) = .ok (l, p) ∧ p ≠ pre.length + L := by
    obtain ⟨n, hn⟩ : ∃ n, L = n + 2 := ⟨L - 2, by omega⟩
    rw [untilLoop]
    split
    swap
    · exact Or.inr ⟨_, _, rfl, by omega⟩
    rw [readMPI_at hd3 hp, Out.ok_bind]
    dsimp only
    rw [show L = (L - 1) + 1 by omega, untilLoop]
    rw [show (L - 1) + 1 = L by omega]
    split
    swap
    · exact Or.inr ⟨_, _, rfl, by omega⟩
    rcases readMPI_wrapped hw hl hd4 with hr | ⟨a, p, hr, hp'⟩
    · rw [hr]; exact Or.inl rfl
    · rw [hr, Out.ok_bind]
      dsimp only
      rw [show L - 1 = (L - 2) + 1 by omega, untilLoop, if_neg (by omega)]
      exact Or.inr ⟨_, _, rfl, by omega⟩
  rcases key with hr | ⟨l, p, hr, hne⟩
  · rw [hr]; rfl
  · rw [hr]
    simp [hne]

/-- What `valid` accepts as a session key for ECDH is one number, which is no packet of RFC 6637 whatever the wrapped key. -/
theorem C72_session_valid_fails (t : Tag1) (h : t.pka = 18) (hv : t.gpgValid true = .success) (hs : ∀ m ∈ t.mpi, bitsize m ≤ 65528)
    (keyid : Bytes) (hk : keyid.length = 8) (point : Nat) (hp : bitsize point ≤ 65528) (w : Bytes) : t.raw ≠ sessionBody keyid point w := by
  rw [Tag1.gpgValid, h] at hv
  rw [if_neg (show ¬ (18 : UInt8) = 16 by decide)] at hv
  split_ifs at hv with h1 h2 h3 h4 h6
  have hm : t.mpi.length = 1 := by simpa using h6
  obtain ⟨m, hm⟩ := List.length_eq_one_iff.mp hm
  have hb := hs m (by rw [hm]; simp)
  intro he
  have hk' : t.keyid.length = 8 := by simpa using h2
  rw [Tag1.raw, sessionBody, hm, h] at he
  simp only [List.append_assoc, List.cons_append, List.nil_append, List.cons.injEq, true_and] at he
  have he2 := (List.append_inj he (by rw [hk', hk])).2
  simp only [List.cons.injEq, true_and] at he2
  have hw : writeMPIs [m] = mpiOctets m := by simp [writeMPIs]
  rw [hw] at he2
  have r1 := readMPI_at (data := mpiOctets m) (pos := 0) (rest := []) (by simp) hb
  have r2 := readMPI_at (data := mpiOctets m) (pos := 0) (rest := UInt8.ofNat w.length :: w) (by simpa using he2) hp
  have e := Out.ok.inj (r1.symm.trans r2)
  simp only [Prod.mk.injEq] at e
  obtain ⟨rfl, -⟩ := e
  have := congrArg List.length he2
  simp at this

/-- An ECDSA key, an ECDSA signature, and a session key for ECDH with 48 wrapped octets behind a two-octet header. -/
example : Tag1.readAt ⟨[0x84, 69] ++ sessionBody (List.replicate 8 7) 0x40ffeeddccbbaa99 (List.replicate 48 9) ++ [1, 2, 3], 2, 69, false⟩ = .throw ∧
    (⟨3, List.replicate 8 7, 18, [5]⟩ : Tag1).gpgValid true = .success ∧
    (⟨⟨4, 0, 19, [5], 0⟩, oid [1, 3, 132, 0, 34], 0, 0, 0⟩ : GpgKey).valid false = .success := by decide +kernel

end OpenPGP
