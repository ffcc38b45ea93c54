import Verif.Spec.SigHash
import Verif.Props.C33
import Verif.Props.C08
import Verif.Props.C11
import Verif.Props.C06Packets

/-!
# C32: distinct signed content gives distinct hash input
-/
namespace OpenPGP
open Rfc
variable {E : Type}

/-- What the library hashes for a thing that is signed. -/
def libraryInput (rawE : E → Bytes) (c : Signed E) (s : Tag2 E) : Out Bytes :=
  match c with
  | .document d => sign00Input rawE d s
  | .text t => sign01Input rawE t s
  | .nothing => if s.type = 0x40 then sign40Input rawE s else sign02Input rawE s
  | .user k id => if s.type = 0x30 then signUserInput rawE 0x30 k id s else signCertInput rawE s.type k id s
  | .binding p k => signBindingInput rawE p k s
  | .key k =>
    if s.type = 0x20 then sign20Input rawE (.publicKey k) s
    else if s.type = 0x28 then sign28Input rawE (.publicSubkey k) s
    else sign1fInput rawE k s

/-- The content of RFC 4880 5.2.4. -/
def contentOctets (rawE : E → Bytes) : Signed E → Out Bytes
  | .document d => .ok d
  | .text t => .ok (joinCrlf (textLines t))
  | .nothing => .ok []
  | .user k id => do
    let r ← id.raw rawE
    return keyContent k.rawCommon ++ userContent (id.tag == 13) r
  | .binding p k => .ok (keyContent p.rawCommon ++ keyContent k.rawCommon)
  | .key k => .ok (keyContent k.rawCommon)

theorem upToHashed_v4 (rawE : E → Bytes) (s : Tag2 E) (h : s.version = 4) :
    s.upToHashed rawE = .ok (trailer s.type s.pka s.hash (writeSubpackets rawE s.hashed)) := by
  rw [Tag2.upToHashed, if_neg (by rw [h]; decide), if_pos h]
  rfl

theorem addtrailer_v4 (rawE : E → Bytes) (data : Bytes) (s : Tag2 E) (h : s.version = 4) :
    addtrailer rawE data s = .ok (hashInput data (trailer s.type s.pka s.hash (writeSubpackets rawE s.hashed))) := by
  rw [addtrailer, upToHashed_v4 rawE s h, Out.ok_bind, if_neg (by rw [h]; decide), if_pos h]
  rfl

/-- The library hashes the octets RFC 4880 5.2.4 prescribes, for every content and every version 4 signature of a fitting type. -/
theorem C32_prescribed (rawE : E → Bytes) (c : Signed E) (s : Tag2 E) (hv : s.version = 4) (hf : c.fits s.type)
    (hid : ∀ k id, c = .user k id → id.tag = 13 ∨ id.tag = 17) :
    libraryInput rawE c s = (contentOctets rawE c >>= fun o =>
      .ok (hashInput o (trailer s.type s.pka s.hash (writeSubpackets rawE s.hashed)))) := by
  cases c with
  | document d => exact addtrailer_v4 rawE d s hv
  | text t =>
    rw [libraryInput, sign01Input, addtrailer_v4 rawE _ s hv, contentOctets, Out.ok_bind, canonicalBody_eq]
  | nothing =>
    rw [libraryInput]
    rcases hf with hf | hf
    · rw [if_neg (by rw [hf]; decide), sign02Input, if_neg (by rw [hv]; decide), addtrailer_v4 rawE _ s hv]
      rfl
    · rw [if_pos hf, sign40Input, if_neg (by rw [hf]; decide), addtrailer_v4 rawE _ s hv]
      rfl
  | user k id =>
    have hcore : ∀ t, s.type = t → signUserInput rawE t k id s = (contentOctets rawE (.user k id) >>= fun o =>
        .ok (hashInput o (trailer s.type s.pka s.hash (writeSubpackets rawE s.hashed)))) := by
      intro t ht
      rw [signUserInput, if_neg (by rw [ht]; simp), certification, contentOctets]
      cases hr : id.raw rawE with
      | ok r =>
        simp only [Out.ok_bind, hv]
        rw [if_neg (by decide), if_pos trivial]
        rcases hid k id rfl with h | h
        · rw [if_pos h]
          show addtrailer rawE _ s = _
          rw [addtrailer_v4 rawE _ s hv, h]
          rfl
        · rw [if_neg (by rw [h]; decide), if_pos h]
          show addtrailer rawE _ s = _
          rw [addtrailer_v4 rawE _ s hv, h]
          rfl
      | throw => rfl
      | ub => rfl
      | diverge => rfl
    rw [libraryInput]
    split
    · rename_i h; exact hcore 0x30 h
    · rename_i h
      rw [signCertInput, if_pos, hcore _ rfl]
      rcases hf with hf | hf | hf | hf | hf
      · rw [hf]; decide
      · rw [hf]; decide
      · rw [hf]; decide
      · rw [hf]; decide
      · exact absurd hf h
  | binding p k =>
    rw [libraryInput, signBindingInput, addtrailer_v4 rawE _ s hv]
    rfl
  | key k =>
    rw [libraryInput]
    split
    · rename_i h
      show (if s.type ≠ 0x20 then _ else _) = _
      rw [if_neg (by rw [h]; decide), addtrailer_v4 rawE _ s hv]
      rfl
    · split
      · rename_i h
        show (if s.type ≠ 0x28 then _ else _) = _
        rw [if_neg (by rw [h]; decide), addtrailer_v4 rawE _ s hv]
        rfl
      · rw [sign1fInput, addtrailer_v4 rawE _ s hv]
        rfl

/-- The hashed part is the beginning of the signature packet's body. -/
theorem C32_trailer_prefix (rawE : E → Bytes) (s : Tag2 E) (h : s.version = 4) (t : Bytes) (ht : s.upToHashed rawE = .ok t) :
    t <+: s.raw rawE := by
  rw [upToHashed_v4 rawE s h] at ht
  obtain rfl := Out.ok.inj ht
  refine ⟨be 2 (writeSubpackets rawE s.unhashed).length ++ writeSubpackets rawE s.unhashed ++ s.left16 ++ writeMPIs s.mpi, ?_⟩
  rw [Tag2.raw, h, trailer]
  simp

/-- Content and hashed part can be told apart. -/
theorem hashInput_inj {c c' t t' : Bytes} (h : hashInput c t = hashInput c' t') (hl : t.length < 2 ^ 32) (hl' : t'.length < 2 ^ 32) :
    c = c' ∧ t = t' := by
  rw [hashInput, hashInput] at h
  obtain ⟨h1, h2⟩ := List.append_inj' h (by simp)
  have h3 := be_inj (w := 4) (by omega) (by omega) h2
  obtain ⟨h4, -⟩ := List.append_inj' h1 (by simp)
  exact List.append_inj' h4 h3

theorem trailer_inj {a b c a' b' c' : UInt8} {h h' : Bytes} (e : trailer a b c h = trailer a' b' c' h') :
    a = a' ∧ b = b' ∧ c = c' ∧ h = h' := by
  rw [trailer, trailer] at e
  obtain ⟨h1, h2⟩ := List.append_inj e (by simp)
  obtain ⟨h3, -⟩ := List.append_inj h1 rfl
  simp only [List.cons.injEq, and_true, true_and] at h3
  exact ⟨h3.1, h3.2.1, h3.2.2, h2⟩

theorem keyContent_inj {a a' r r' : Bytes} (h : keyContent a ++ r = keyContent a' ++ r') (ha : a.length < 65536) (ha' : a'.length < 65536) :
    a = a' ∧ r = r' := by
  rw [keyContent, keyContent] at h
  simp only [List.append_assoc] at h
  obtain ⟨-, h⟩ := List.append_inj h rfl
  obtain ⟨h1, h⟩ := List.append_inj h (by simp)
  have := be_inj (w := 2) (by omega) (by omega) h1
  exact List.append_inj h this

theorem userContent_inj {i i' : Bool} {a a' : Bytes} (h : userContent i a = userContent i' a') : i = i' ∧ a = a' := by
  rw [userContent, userContent] at h
  simp only [List.append_assoc] at h
  obtain ⟨h1, h⟩ := List.append_inj h rfl
  obtain ⟨-, h⟩ := List.append_inj h (by simp)
  refine ⟨?_, h⟩
  cases i <;> cases i' <;> first | rfl | (exact absurd h1 (by decide))

/-- Bodies short enough for the length fields. -/
def Signed.small (rawE : E → Bytes) : Signed E → Prop
  | .user k id => k.rawCommon.length < 65536 ∧ (id.tag = 13 ∨ id.tag = 17) ∧ ∃ r, id.raw rawE = .ok r
  | .binding p k => p.rawCommon.length < 65536 ∧ k.rawCommon.length < 65536
  | .key k => k.rawCommon.length < 65536
  | _ => True

/-- The same content: equal documents, texts with equal lines, packets with equal bodies. -/
def SameContent (rawE : E → Bytes) : Signed E → Signed E → Prop
  | .document d, .document d' => d = d'
  | .text t, .text t' => textLines t = textLines t'
  | .nothing, .nothing => True
  | .user k id, .user k' id' => k.rawCommon = k'.rawCommon ∧ id.tag = id'.tag ∧ id.raw rawE = id'.raw rawE
  | .binding p k, .binding p' k' => p.rawCommon = p'.rawCommon ∧ k.rawCommon = k'.rawCommon
  | .key k, .key k' => k.rawCommon = k'.rawCommon
  | _, _ => False

/-- Number of the alternative. -/
private def kind : Signed E → Nat
  | .document _ => 0
  | .text _ => 1
  | .nothing => 2
  | .user _ _ => 3
  | .binding _ _ => 4
  | .key _ => 5

private theorem fits_kind' (c : Signed E) {t : UInt8} (h : c.fits t) : kind c = (if t = 0 then 0 else if t = 1 then 1 else if t = 2 ∨ t = 64
    then 2 else if t = 24 ∨ t = 25 then 4 else if t = 31 ∨ t = 32 ∨ t = 40 then 5 else 3) := by
  cases c <;> simp only [Signed.fits] at h
  · subst h; rfl
  · subst h; rfl
  · rcases h with rfl | rfl <;> rfl
  · rcases h with rfl | rfl | rfl | rfl | rfl <;> rfl
  · rcases h with rfl | rfl <;> rfl
  · rcases h with rfl | rfl | rfl <;> rfl

private theorem fits_kind (c c' : Signed E) {t : UInt8} (h : c.fits t) (h' : c'.fits t) : kind c = kind c' := by
  rw [fits_kind' c h, fits_kind' c' h']

/-- If the octets hashed for two version 4 signatures over things that fit their types are the same, the signatures have the same
type, algorithms and hashed subpackets, and the things are the same. -/
theorem C32_injective (rawE : E → Bytes) (c c' : Signed E) (s s' : Tag2 E) (hv : s.version = 4) (hv' : s'.version = 4)
    (hf : c.fits s.type) (hf' : c'.fits s'.type) (hs : Signed.small rawE c) (hs' : Signed.small rawE c')
    (hl : (writeSubpackets rawE s.hashed).length < 2 ^ 31) (hl' : (writeSubpackets rawE s'.hashed).length < 2 ^ 31) (i : Bytes)
    (h : libraryInput rawE c s = .ok i) (h' : libraryInput rawE c' s' = .ok i) :
    (s.type = s'.type ∧ s.pka = s'.pka ∧ s.hash = s'.hash ∧ writeSubpackets rawE s.hashed = writeSubpackets rawE s'.hashed) ∧
      SameContent rawE c c' := by
  rw [C32_prescribed rawE c s hv hf (by rintro k id rfl; exact hs.2.1)] at h
  rw [C32_prescribed rawE c' s' hv' hf' (by rintro k id rfl; exact hs'.2.1)] at h'
  obtain ⟨o, ho, h⟩ := Out.bind_eq_ok.mp h
  obtain ⟨o', ho', h'⟩ := Out.bind_eq_ok.mp h'
  obtain rfl := Out.ok.inj h
  obtain ⟨he, ht⟩ := hashInput_inj (Out.ok.inj h') (by simp [trailer]; omega) (by simp [trailer]; omega)
  subst he
  obtain ⟨h1, h2, h3, h4⟩ := trailer_inj ht
  refine ⟨⟨h1.symm, h2.symm, h3.symm, h4.symm⟩, ?_⟩
  rw [h1] at hf'
  clear ht h h' h1 h2 h3 h4
  have tagEq : ∀ {a b : Nat}, (a = 13 ∨ a = 17) → (b = 13 ∨ b = 17) → (a == 13) = (b == 13) → a = b := by
    rintro a b (rfl | rfl) (rfl | rfl) h <;> first | rfl | (exact absurd h (by decide))
  have hk := fits_kind c c' hf hf'
  cases c <;> cases c' <;> first | (exfalso; simp [kind] at hk; done) | skip
  · exact (Out.ok.inj ho).trans (Out.ok.inj ho').symm
  · rename_i t t'
    have : joinCrlf (textLines t) = joinCrlf (textLines t') := (Out.ok.inj ho).trans (Out.ok.inj ho').symm
    exact joinCrlf_inj (textLines_noLf t).1 (textLines_noLf t').1 (textLines_noLf t).2 (textLines_noLf t').2 this
  · trivial
  · rename_i k id k' id'
    obtain ⟨a1, a2, r, a3⟩ := hs
    obtain ⟨b1, b2, r', b3⟩ := hs'
    rw [contentOctets, a3, Out.ok_bind] at ho
    rw [contentOctets, b3, Out.ok_bind] at ho'
    have e : keyContent k.rawCommon ++ userContent (id.tag == 13) r = keyContent k'.rawCommon ++ userContent (id'.tag == 13) r' :=
      (Out.ok.inj ho).trans (Out.ok.inj ho').symm
    obtain ⟨e1, e2⟩ := keyContent_inj e a1 b1
    obtain ⟨e3, e4⟩ := userContent_inj e2
    exact ⟨e1, tagEq a2 b2 e3, by rw [a3, b3, e4]⟩
  · rename_i p k p' k'
    have e : keyContent p.rawCommon ++ keyContent k.rawCommon = keyContent p'.rawCommon ++ keyContent k'.rawCommon :=
      (Out.ok.inj ho).trans (Out.ok.inj ho').symm
    obtain ⟨e1, e2⟩ := keyContent_inj e hs.1 hs'.1
    have e2' : keyContent k.rawCommon ++ [] = keyContent k'.rawCommon ++ [] := by rw [e2]
    exact ⟨e1, (keyContent_inj e2' hs.2 hs'.2).1⟩
  · rename_i k k'
    have e : keyContent k.rawCommon ++ [] = keyContent k'.rawCommon ++ [] := by
      rw [(Out.ok.inj ho).trans (Out.ok.inj ho').symm]
    exact (keyContent_inj e hs hs').1

/-- Version 4 keys with the same body are the same key. -/
theorem C32_same_key (k k' : KeyPkt) (h : k.wfV4) (h' : k'.wfV4) (e : k.rawCommon = k'.rawCommon) : k = k' := by
  have h1 := C11_v4 k h k.rawCommon 0 [] (by simp)
  have h2 := C11_v4 k' h' k'.rawCommon 0 [] (by simp)
  rw [e, h2] at h1
  exact (Out.ok.inj h1).symm

/-- Well-formed signatures with the same hashed octets have the same hashed subpackets. -/
theorem C32_same_subpackets (n : Nat) (s s' : SigAt (n + 1)) (h : wfSig (n + 1) s) (h' : wfSig (n + 1) s') (hv : Tag2.version s = 4)
    (hv' : Tag2.version s' = 4) (e : writeSubpackets (rawAt n) (Tag2.hashed s) = writeSubpackets (rawAt n) (Tag2.hashed s')) :
    Tag2.hashed s = Tag2.hashed s' := by
  have o := okV4_of_wf h (fun e he => wfSig_ok n e he) hv
  have o' := okV4_of_wf h' (fun e he => wfSig_ok n e he) hv'
  refine C08_injective_partial (readSigAt n) _ _ _ ?_ ?_ e
  · intro x hx
    rcases List.mem_append.mp hx with hx | hx
    · exact o.hashed x hx
    · exact o'.hashed x hx
  · intro x hx
    rcases List.mem_append.mp hx with hx | hx
    · have := sub_raw_lt o.hashedLen x hx
      omega
    · have := sub_raw_lt o'.hashedLen x hx
      omega

/-! ## Version 3 signatures -/

theorem addtrailer_v3 (rawE : E → Bytes) (data : Bytes) (s : Tag2 E) (h : s.version = 3) :
    addtrailer rawE data s = .ok (data ++ ([s.type] ++ be 4 s.time)) := by
  rw [addtrailer, Tag2.upToHashed, if_pos h, Out.ok_bind, if_pos h]
  rfl

/-- The content of a version 3 signature: user IDs are hashed without a prefix (RFC 4880 5.2.4). -/
def contentOctets3 (rawE : E → Bytes) : Signed E → Out Bytes
  | .user k id => do
    let r ← id.raw rawE
    return keyContent k.rawCommon ++ r
  | c => contentOctets rawE c

/-- What is hashed for a version 3 signature: content, type and creation time. (A standalone signature of version 3 is refused.) -/
theorem C32_v3_prescribed (rawE : E → Bytes) (c : Signed E) (s : Tag2 E) (hv : s.version = 3) (hf : c.fits s.type)
    (hn : s.type ≠ 0x02) :
    libraryInput rawE c s = (contentOctets3 rawE c >>= fun o => .ok (o ++ ([s.type] ++ be 4 s.time))) := by
  cases c with
  | document d => exact addtrailer_v3 rawE d s hv
  | text t =>
    rw [libraryInput, sign01Input, addtrailer_v3 rawE _ s hv, contentOctets3, contentOctets, Out.ok_bind, canonicalBody_eq]
    · intro k id h; cases h
  | nothing =>
    rw [libraryInput]
    rcases hf with hf | hf
    · exact absurd hf hn
    · rw [if_pos hf, sign40Input, if_neg (by rw [hf]; decide), addtrailer_v3 rawE _ s hv]
      rfl
  | user k id =>
    have hcore : ∀ t, s.type = t → signUserInput rawE t k id s = (contentOctets3 rawE (.user k id) >>= fun o =>
        .ok (o ++ ([s.type] ++ be 4 s.time))) := by
      intro t ht
      rw [signUserInput, if_neg (by rw [ht]; simp), certification, contentOctets3]
      cases hr : id.raw rawE with
      | ok r =>
        simp only [Out.ok_bind, hv]
        rw [if_pos trivial]
        show addtrailer rawE _ s = _
        rw [addtrailer_v3 rawE _ s hv]
        rfl
      | throw => rfl
      | ub => rfl
      | diverge => rfl
    rw [libraryInput]
    split
    · rename_i h; exact hcore 0x30 h
    · rename_i h
      rw [signCertInput, if_pos, hcore _ rfl]
      rcases hf with hf | hf | hf | hf | hf
      · rw [hf]; decide
      · rw [hf]; decide
      · rw [hf]; decide
      · rw [hf]; decide
      · exact absurd hf h
  | binding p k =>
    rw [libraryInput, signBindingInput, addtrailer_v3 rawE _ s hv]
    rfl
  | key k =>
    rw [libraryInput]
    split
    · rename_i h
      show (if s.type ≠ 0x20 then _ else _) = _
      rw [if_neg (by rw [h]; decide), addtrailer_v3 rawE _ s hv]
      rfl
    · split
      · rename_i h
        show (if s.type ≠ 0x28 then _ else _) = _
        rw [if_neg (by rw [h]; decide), addtrailer_v3 rawE _ s hv]
        rfl
      · rw [sign1fInput, addtrailer_v3 rawE _ s hv]
        rfl

/-- A version 3 and a version 4 signature over things that fit their types never have the same hash input. -/
theorem C32_versions (rawE : E → Bytes) (c c' : Signed E) (s s' : Tag2 E) (hv : s.version = 3) (hv' : s'.version = 4)
    (hf : c.fits s.type) (hf' : c'.fits s'.type) (hs' : Signed.small rawE c') (i : Bytes)
    (h : libraryInput rawE c s = .ok i) (h' : libraryInput rawE c' s' = .ok i) : False := by
  have hn : s.type ≠ 0x02 := by
    intro h2
    cases c with
    | nothing =>
      rw [libraryInput, if_neg (by rw [h2]; decide), sign02Input, if_pos hv] at h
      cases h
    | document => rw [Signed.fits, h2] at hf; exact absurd hf (by decide)
    | text => rw [Signed.fits, h2] at hf; exact absurd hf (by decide)
    | user => rw [Signed.fits, h2] at hf; exact absurd hf (by decide)
    | binding => rw [Signed.fits, h2] at hf; exact absurd hf (by decide)
    | key => rw [Signed.fits, h2] at hf; exact absurd hf (by decide)
  rw [C32_v3_prescribed rawE c s hv hf hn] at h
  rw [C32_prescribed rawE c' s' hv' hf' (by rintro k id rfl; exact hs'.2.1)] at h'
  obtain ⟨o, ho, h⟩ := Out.bind_eq_ok.mp h
  obtain ⟨o', ho', h'⟩ := Out.bind_eq_ok.mp h'
  obtain rfl := Out.ok.inj h
  have e := Out.ok.inj h'
  rw [hashInput] at e
  rw [show ([0x04, 0xff] : Bytes) = [0x04] ++ [0xff] from rfl, ← List.append_assoc, List.append_assoc _ [0xff]] at e
  have e2 := (List.append_inj' e (by simp)).2
  have e3 : (0xff : UInt8) = s.type := by
    have := (List.append_inj e2 rfl).1
    simpa using this
  rw [← e3] at hf
  cases c <;> simp only [Signed.fits] at hf <;> exact absurd hf (by decide)

/-- Version 3: the type, the time and the content octets are determined. -/
theorem C32_v3_injective (rawE : E → Bytes) (c c' : Signed E) (s s' : Tag2 E) (hv : s.version = 3) (hv' : s'.version = 3)
    (hf : c.fits s.type) (hf' : c'.fits s'.type) (hn : s.type ≠ 0x02) (hn' : s'.type ≠ 0x02) (ht : s.time < 2 ^ 32)
    (ht' : s'.time < 2 ^ 32) (i : Bytes) (h : libraryInput rawE c s = .ok i) (h' : libraryInput rawE c' s' = .ok i) :
    s.type = s'.type ∧ s.time = s'.time ∧ ∃ o, contentOctets3 rawE c = .ok o ∧ contentOctets3 rawE c' = .ok o := by
  rw [C32_v3_prescribed rawE c s hv hf hn] at h
  rw [C32_v3_prescribed rawE c' s' hv' hf' hn'] at h'
  obtain ⟨o, ho, h⟩ := Out.bind_eq_ok.mp h
  obtain ⟨o', ho', h'⟩ := Out.bind_eq_ok.mp h'
  obtain rfl := Out.ok.inj h
  obtain ⟨e1, e2⟩ := List.append_inj' (Out.ok.inj h') (by simp)
  obtain ⟨e3, e4⟩ := List.append_inj e2 rfl
  refine ⟨?_, ?_, o, ho, e1 ▸ ho'⟩
  · simpa using e3.symm
  · exact (be_inj (w := 4) (by omega) (by omega) e4).symm

/-! ## Third-party confirmations -/

/-- `to_sign_50` returns the octets RFC 4880 5.2.4 gives for a confirmed version 4 signature: 0x88, a four-octet length and the body of the
signature packet as it would be without unhashed subpackets. -/
theorem C32_third_party_content (rawE : E → Bytes) (s : Tag2 E) (hv : s.version = 4 ∨ s.version = 3) :
    ∃ body, Tag2.raw rawE { s with unhashed := [] } = body ∧ sign50 rawE s = 0x88 :: (be 4 body.length ++ body) := by
  refine ⟨_, rfl, ?_⟩
  have : s.withoutUnhashed rawE = Tag2.raw rawE { s with unhashed := [] } := by
    rcases hv with hv | hv
    · simp [Tag2.withoutUnhashed, Tag2.raw, hv, writeSubpackets, be]
    · simp [Tag2.withoutUnhashed, Tag2.raw, hv]
  rw [sign50, this]
  rfl

/-! ## Examples -/

private def c32Sig (t : UInt8) : Tag2 Unit := { Tag2.fresh with version := 4, type := t, pka := 17, hash := 8 }

/-- A user ID certification: hypotheses and result. -/
example : (Signed.user c11Dsa (.userId [0x41]) : Signed Unit).fits (c32Sig 0x13).type ∧
    Signed.small (fun _ => []) (.user c11Dsa (.userId [0x41]) : Signed Unit) ∧
    ∃ i, libraryInput (fun _ => []) (.user c11Dsa (.userId [0x41]) : Signed Unit) (c32Sig 0x13) = .ok i := by
  refine ⟨by simp [Signed.fits, c32Sig], ⟨by decide +kernel, Or.inl rfl, _, rfl⟩, _, rfl⟩

/-- A document containing a key and a user ID does not hash like the certification. -/
example : (Signed.document [1, 2, 3] : Signed Unit).fits (c32Sig 0).type ∧
    libraryInput (fun _ => []) (.document [1, 2, 3]) (c32Sig 0) = .ok [1, 2, 3, 4, 0, 17, 8, 0, 0, 4, 0xff, 0, 0, 0, 6] := by
  exact ⟨rfl, rfl⟩

end OpenPGP
