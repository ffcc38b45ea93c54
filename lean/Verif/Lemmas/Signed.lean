import Verif.Props.C36
import Verif.Props.C15

/-!
# Signatures made by the library are well formed

What `Sign` makes with a key of at most 32000 bits is a signature packet that is written and read without loss (C10).
-/
namespace OpenPGP
open Rfc
variable {E : Type}

theorem log2_le_of_lt {a n : Nat} (h : a < n) : a.log2 ≤ n.log2 := by
  by_cases ha : a = 0
  · subst ha; simp
  · rw [Nat.le_log2 (by omega)]
    exact le_trans (Nat.log2_self_le ha) h.le

/-- The values of a signature are smaller than the numbers of the key. -/
theorem signPka_size {hash pka : UInt8} {digest : Bytes} {pub pri vals draws : List Nat} (hk : SigningPair pka pub pri)
    (h : signPka draws digest pka pri pub hash = .ok vals) :
    vals.length = (if pka = 17 then 2 else 1) ∧ ∀ v ∈ vals, ∃ n ∈ pub, v.log2 ≤ n.log2 := by
  rw [signPka] at h
  rcases hk with ⟨rfl, hk⟩ | ⟨rfl, hk⟩
  · rw [if_pos (Or.inl rfl)] at h
    obtain ⟨n, hn, h⟩ := Out.bind_eq_ok.mp h
    obtain ⟨em, hem, h⟩ := Out.bind_eq_ok.mp h
    obtain ⟨s, hs, h⟩ := Out.bind_eq_ok.mp h
    obtain rfl := Out.ok.inj h
    refine ⟨rfl, fun v hv => ?_⟩
    obtain rfl := List.mem_singleton.mp hv
    rw [rsaSign] at hs
    obtain ⟨d, -, hs⟩ := Out.bind_eq_ok.mp hs
    rw [rsaDecrypt] at hs
    obtain ⟨x, -, hs⟩ := Out.bind_eq_ok.mp hs
    obtain ⟨m, hm, hs⟩ := Out.bind_eq_ok.mp hs
    rw [powm] at hs
    split at hs
    · exact absurd hs (by simp)
    · next ho =>
      have := Out.ok.inj hs
      have hm' := vecAt_eq_ok.mp hm
      refine ⟨m, List.mem_of_getElem? hm', log2_le_of_lt ?_⟩
      rw [← this]
      exact Nat.mod_lt _ (by omega)
  · rw [if_neg (by decide), if_pos rfl, dsaSign] at h
    obtain ⟨d, -, h⟩ := Out.bind_eq_ok.mp h
    rw [dsaSignInt] at h
    obtain ⟨p, hp, h⟩ := Out.bind_eq_ok.mp h
    obtain ⟨q, hq, h⟩ := Out.bind_eq_ok.mp h
    obtain ⟨g, hg, h⟩ := Out.bind_eq_ok.mp h
    obtain ⟨x, hx, h⟩ := Out.bind_eq_ok.mp h
    split at h
    · exact absurd h (by simp)
    · next hq0 =>
      have key : ∀ draws, dsaSignLoop d x p q g draws = .ok vals → ∃ r s, vals = [r, s] ∧ r < q ∧ s < q := by
        intro draws
        induction draws with
        | nil => intro h; exact absurd h (by simp [dsaSignLoop])
        | cons k draws ih =>
          intro h
          rw [dsaSignLoop] at h
          obtain ⟨⟨r, s⟩, hr, h⟩ := Out.bind_eq_ok.mp h
          simp only at h
          split at h
          · exact ih h
          · obtain rfl := Out.ok.inj h
            refine ⟨r, s, rfl, ?_⟩
            rw [dsaRound] at hr
            obtain ⟨w, -, hr⟩ := Out.bind_eq_ok.mp hr
            simp only at hr
            split at hr
            · have := Out.ok.inj hr
              simp only [Prod.mk.injEq] at this
              omega
            · have := Out.ok.inj hr
              simp only [Prod.mk.injEq] at this
              rw [← this.1, ← this.2]
              exact ⟨Nat.mod_lt _ (by omega), Nat.mod_lt _ (by omega)⟩
      obtain ⟨r, s, rfl, h1, h2⟩ := key draws h
      refine ⟨rfl, fun v hv => ⟨q, List.mem_of_getElem? (vecAt_eq_ok.mp hq), log2_le_of_lt ?_⟩⟩
      rcases List.mem_cons.mp hv with rfl | hv
      · exact h1
      · obtain rfl := List.mem_singleton.mp hv
        exact h2

/-- The key has numbers of at most 32000 bits. -/
def SmallKey (k : KeyPkt) : Prop := ∀ n ∈ k.mpi, n.log2 < 32000

/-- A signature made with such a key: well formed, and of a readable length. -/
theorem made_wf {n : Nat} {cr : Crypto} (hcr : cr.Ok) {a : SignArgs (SigAt n)} {before : List (Pkt (SigAt n))} {t : Tag5} {pri draws : List Nat}
    (h : CanSign cr a before t pri) (hsm : SmallKey t.key) {type : UInt8} {kid : Bytes} (hkid : t.key.keyid cr = .ok kid) {now : Nat} (hnow : now < 2 ^ 32)
    {input : Tag2 (SigAt n) → Out Bytes} {s : Tag2 (SigAt n)}
    (hm : makeSig cr a draws t (createSig 4 type t.key.pka a.hash kid now) input = .ok (some s)) :
    wfSig (n + 1) s ∧ s.version = 4 ∧ (Tag2.raw (rawAt n) s).length < 8128 := by
  obtain ⟨i, vals, l, hi, hl, hr, -⟩ := makeSig_ok hcr h rfl hm
  have hvals : vals.length = (if t.key.pka = 17 then 2 else 1) ∧ ∀ v ∈ vals, ∃ n ∈ t.key.mpi, v.log2 ≤ n.log2 := by
    rw [makeSig] at hm
    obtain ⟨d, hd, hm⟩ := Out.bind_eq_ok.mp hm
    rw [finishSig] at hm
    obtain ⟨l, hl, hm⟩ := Out.bind_eq_ok.mp hm
    rw [h.opens, Out.ok_bind] at hm
    obtain ⟨vals', hv, hm⟩ := Out.bind_eq_ok.mp hm
    have hs := signPka_size h.pair hv
    split at hm
    · exact absurd hm (by simp)
    · have e := Out.ok.inj hm
      rw [hr] at e
      simp only [Option.some.injEq, Tag2.mk.injEq] at e
      obtain rfl : vals' = vals := by tauto
      exact hs
  obtain rfl := Option.some.inj hr
  have hkl := keyid_length cr hcr hkid
  have hhash : 2 ≤ l := by
    rcases hashAlg_cases hl with h | h | h | h | h | h | h <;> rw [show (createSig 4 type t.key.pka a.hash kid now : Tag2 (SigAt n)).hash = a.hash from rfl] at h hl <;>
      rw [h] at hl <;> simp [hashLen] at hl <;> omega
  have hdl := hcr.hash_len _ _ i hl
  have w1 : (writeSubpackets (rawAt n) ([⟨false, .sigTime now⟩] : List (Sub (SigAt n)))).length = 6 := by
    simp [writeSubpackets, Sub.write, SubBody.raw, subLengthOctets]
  have w2 : (writeSubpackets (rawAt n) ([⟨false, .issuer kid⟩] : List (Sub (SigAt n)))).length = 10 := by
    simp [writeSubpackets, Sub.write, SubBody.raw, subLengthOctets, hkl]
  have hmpi : ∀ v ∈ vals, v.log2 < 32000 := by
    intro v hv
    obtain ⟨m, hm, hle⟩ := hvals.2 v hv
    exact lt_of_le_of_lt hle (hsm m hm)
  have hlen : (writeMPIs vals).length ≤ 8006 := by
    rcases h.pair with ⟨hp, -⟩ | ⟨hp, -⟩
    · rw [hp, if_neg (by decide)] at hvals
      obtain ⟨v, rfl⟩ := List.length_eq_one_iff.mp hvals.1
      have := hmpi v (by simp)
      simp [writeMPIs]
      omega
    · rw [hp, if_pos rfl] at hvals
      obtain ⟨v, w, rfl⟩ := List.length_eq_two.mp hvals.1
      have h1 := hmpi v (by simp)
      have h2 := hmpi w (by simp)
      simp [writeMPIs]
      omega
  have hleft : ((cr.hash (createSig 4 type t.key.pka a.hash kid now : Tag2 (SigAt n)).hash i).take 2).length = 2 := by
    rw [List.length_take, hdl]; omega
  refine ⟨⟨hleft, hvals.1, fun v hv => ?_, Or.inl ⟨rfl, ?_, ?_, ?_, ?_, rfl, rfl⟩⟩, rfl, ?_⟩
  · have := hmpi v hv
    simp only [bitsize]; omega
  · intro x hx
    obtain rfl := List.mem_singleton.mp hx
    exact ⟨hnow, by simp, by simp, by simp⟩
  · intro x hx
    obtain rfl := List.mem_singleton.mp hx
    exact ⟨trivial, by simp, by simp, by simp⟩
  · exact lt_of_eq_of_lt w1 (by decide)
  · exact lt_of_eq_of_lt w2 (by decide)
  · rw [Tag2.raw]
    simp only [createSig] at hleft ⊢
    simp only [List.length_append, w1, w2]
    simp
    omega

end OpenPGP
