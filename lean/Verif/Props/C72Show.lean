import Verif.Model.GpgShow
import Verif.Spec.GpgShown
import Verif.Props.C66
import Verif.Props.C72

/-!
# C72: what is shown of elliptic-curve keys

`show` says of a key what is in it, except for the key derivation parameters of ECDH; of a secret EdDSA key without protection it says nothing but two
octets that are not the checksum it calls them.
-/
namespace OpenPGP
open Rfc6637

/-- The table of names has the seven curves under their identifiers. -/
theorem C72_curve_names : curveNames = curveCalled.map (fun c => (hexlify (oid c.1) true, c.2)) ∧ curveCalled.map Prod.fst = curves := by decide +kernel

theorem curveName_mem {c : Bytes} {n : String} (h : curveNames.lookup (hexlify c true) = some n) : ∃ a, (a, n) ∈ curveCalled ∧ c = oid a := by
  rw [C72_curve_names.1] at h
  revert h
  generalize curveCalled = l
  induction l with
  | nil => simp
  | cons x l ih =>
    intro h
    rw [List.map_cons, List.lookup_cons] at h
    by_cases hx : c = oid x.1
    · subst hx
      simp only [beq_self_eq_true, Option.some.injEq] at h
      exact ⟨x.1, by rw [← h]; simp, rfl⟩
    · have hb : (hexlify c true == hexlify (oid x.1) true) = false := by
        rw [beq_eq_false_iff_ne]; exact fun h => hx (hexlify_caps_inj _ h)
      rw [hb] at h
      obtain ⟨a, ha, hc⟩ := ih h
      exact ⟨a, List.mem_cons_of_mem _ ha, hc⟩

theorem curveName_at {a : List Nat} {n : String} (h : (a, n) ∈ curveCalled) : curveNames.lookup (hexlify (oid a) true) = some n := by
  have : ∀ p ∈ curveCalled, curveNames.lookup (hexlify (oid p.1) true) = some p.2 := by decide +kernel
  exact this _ h

theorem curveName_none {c : Bytes} (h : c ∉ curves.map oid) : curveNames.lookup (hexlify c true) = none := by
  cases h1 : curveNames.lookup (hexlify c true) with
  | none => rfl
  | some n =>
    obtain ⟨a, ha, hc⟩ := curveName_mem h1
    exact absurd (List.mem_map.mpr ⟨a, by rw [← C72_curve_names.2]; exact List.mem_map.mpr ⟨_, ha, rfl⟩, hc.symm⟩) h

/-- The lines of a key on one of the curves. -/
theorem C72_shown (time : Nat → Bytes) {g : GpgKey} {k : EcKey} (hg : EcMembers g k) {a : List Nat} {name : String} (ha : (a, name) ∈ curveCalled) (hc : k.curve = oid a) :
    g.acts time = .ok ((k.lines time name).map Act.line) := by
  obtain ⟨⟨v, t, p, m, e⟩, c, k1, k2, k3⟩ := g
  obtain ⟨kt, alg, kc, kq⟩ := k
  obtain ⟨h1, h2, h3, h4, h5, -⟩ := hg
  simp only at h1 h2 h3 h4 h5 hc
  subst h1 h2 h3 h4 h5 hc
  have he : ∀ label, GpgKey.ecActs label ⟨⟨4, t, alg.id, [kq], e⟩, oid a, k1, k2, k3⟩ =
      .ok [.line (ascii label ++ ascii " " ++ ascii name), .line (ascii label ++ ascii " ec point: " ++ mpitohex kq)] := by
    intro label
    simp only [GpgKey.ecActs, curveName_at ha]
    rfl
  have hap : ∀ x y : String, ascii (x ++ y) = ascii x ++ ascii y := by
    intro x y; simp [ascii]
  have hv : ascii "Version: " ++ dec (UInt8.toNat 4) ++ ascii " - " ++ ascii "New" = ascii "Version: 4 - New" := by decide +kernel
  have n18 : mapped gpgPkaNames (UInt8.toNat 18) = ascii "ECDH" := by decide +kernel
  have n19 : mapped gpgPkaNames (UInt8.toNat 19) = ascii "ECDSA" := by decide +kernel
  have n22 : mapped gpgPkaNames (UInt8.toNat 22) = ascii "EdDSA" := by decide +kernel
  have b18 : isRSA 18 = false := by decide
  have b19 : isRSA 19 = false := by decide
  have b22 : isRSA 22 = false := by decide
  have l4 : ¬ (4 : UInt8) < 4 := by decide
  have d1 : ¬ (18 : UInt8) = 16 := by decide
  have d2 : ¬ (18 : UInt8) = 19 := by decide
  have d3 : ¬ (18 : UInt8) = 22 := by decide
  have d4 : ¬ (19 : UInt8) = 16 := by decide
  have d5 : ¬ (22 : UInt8) = 16 := by decide
  have d6 : ¬ (22 : UInt8) = 19 := by decide
  cases alg <;>
    simp only [Alg.id] at he <;>
    simp only [GpgKey.acts, he, Alg.id, Out.ok_bind, EcKey.lines, Alg.called, b18, b19, b22, l4, d1, d2, d3, d4, d5, d6, gpgPkaLine, hap, n18, n19, n22, if_true, if_false, hv,
      Bool.false_eq_true] <;>
    simp

/-- The parts of a key `show` tells apart. -/
theorem C72_shown_inj {time : Nat → Bytes} (ht : Shown.Times time) {g g' : GpgKey} {k k' : EcKey} (hg : EcMembers g k) (hg' : EcMembers g' k') (hk : k.Fits) (hk' : k'.Fits)
    {l : List Act} (h : g.acts time = .ok l) (h' : g'.acts time = .ok l) : k.time = k'.time ∧ k.alg.id = k'.alg.id ∧ k.curve = k'.curve ∧ k.point = k'.point := by
  have known : ∀ {g : GpgKey} {k : EcKey}, EcMembers g k → g.acts time = .ok l → ∃ a n, (a, n) ∈ curveCalled ∧ k.curve = oid a := by
    intro g k hg h
    obtain ⟨⟨v, t, p, m, e⟩, c, k1, k2, k3⟩ := g
    obtain ⟨h1, h2, h3, h4, h5, -⟩ := hg
    simp only at h1 h2 h3 h4 h5
    subst h1 h2 h3 h4 h5
    cases hl : curveNames.lookup (hexlify k.curve true) with
    | some n =>
      obtain ⟨a, ha, hc⟩ := curveName_mem hl
      exact ⟨a, n, ha, hc⟩
    | none =>
      exfalso
      have he : ∀ label q, GpgKey.ecActs label ⟨⟨4, k.time, q, [k.point], e⟩, k.curve, k1, k2, k3⟩ = .throw := by
        intro label q
        simp only [GpgKey.ecActs, hl]; rfl
      have l4 : ¬ (4 : UInt8) < 4 := by decide
      cases ha : k.alg <;> simp only [ha, Alg.id] at h <;> simp [GpgKey.acts, he, l4, isRSA] at h
  obtain ⟨a, n, ha, hc⟩ := known hg h
  obtain ⟨a', n', ha', hc'⟩ := known hg' h'
  rw [C72_shown time hg ha hc] at h
  rw [C72_shown time hg' ha' hc', ← h] at h'
  have e := (List.map_injective_iff.mpr (fun _ _ => Act.line.inj)) (Out.ok.inj h')
  simp only [EcKey.lines, List.cons.injEq, and_true, true_and] at e
  obtain ⟨e1, e2, e3, e4⟩ := e
  have hap : ∀ x y : String, ascii (x ++ y) = ascii x ++ ascii y := by
    intro x y; simp [ascii]
  have et := ht.inj _ _ hk'.time hk.time (label_inj _ e1)
  have ei : k'.alg.id = k.alg.id ∧ k'.alg.called = k.alg.called := by
    cases h1 : k.alg <;> cases h2 : k'.alg <;> simp only [h1, h2, Alg.id, Alg.called] at e2 ⊢ <;> first | exact ⟨rfl, rfl⟩ | exact ⟨trivial, trivial⟩ | (exfalso; revert e2; decide +kernel)
  rw [ei.2] at e3 e4
  have en : ascii n' = ascii n := by
    rw [hap _ n', hap _ n] at e3
    exact List.append_cancel_left e3
  have ea : a' = a := by
    have : ∀ p ∈ curveCalled, ∀ q ∈ curveCalled, ascii p.2 = ascii q.2 → p.1 = q.1 := by decide +kernel
    exact this _ ha' _ ha en
  exact ⟨et.symm, ei.1.symm, by rw [hc, hc', ea], (mpitohex_inj (List.append_cancel_left e4)).symm⟩

/-- The key derivation parameters are not shown: keys with other ones, which have other octets and so other fingerprints, give the same text. -/
theorem C72_kdf_shown_fails (time : Nat → Bytes) (t q : Nat) (h c h' c' : UInt8) (hd : (h, c) ≠ (h', c')) :
    GpgKey.acts time ⟨⟨4, t, 18, [q], 0⟩, oid [1, 3, 132, 0, 34], 3, h, c⟩ = GpgKey.acts time ⟨⟨4, t, 18, [q], 0⟩, oid [1, 3, 132, 0, 34], 3, h', c'⟩ ∧
    GpgKey.rawCommon ⟨⟨4, t, 18, [q], 0⟩, oid [1, 3, 132, 0, 34], 3, h, c⟩ ≠ GpgKey.rawCommon ⟨⟨4, t, 18, [q], 0⟩, oid [1, 3, 132, 0, 34], 3, h', c'⟩ := by
  constructor
  · rfl
  · intro e
    have hl : curveLengths.lookup (hexlify (oid [1, 3, 132, 0, 34]) true) = some 5 := by decide +kernel
    simp only [GpgKey.rawCommon, hl] at e
    simp [Out.ok_bind] at e
    exact hd (by rw [e.1, e.2])

/-- A key on a curve that is not in the table is read (`C72_read`), but showing it throws. -/
theorem C72_unknown_curve_show_throws (time : Nat → Bytes) {g : GpgKey} {k : EcKey} (hg : EcMembers g k) (hc : k.curve ∉ curves.map oid) : g.acts time = .throw := by
  obtain ⟨⟨v, t, p, m, e⟩, c, k1, k2, k3⟩ := g
  obtain ⟨h1, h2, h3, h4, h5, -⟩ := hg
  simp only at h1 h2 h3 h4 h5
  subst h1 h2 h3 h4 h5
  have he : ∀ label q, GpgKey.ecActs label ⟨⟨4, k.time, q, [k.point], e⟩, k.curve, k1, k2, k3⟩ = .throw := by
    intro label q
    simp only [GpgKey.ecActs, curveName_none hc]; rfl
  have l4 : ¬ (4 : UInt8) < 4 := by decide
  cases ha : k.alg <;> simp [GpgKey.acts, he, l4, isRSA, Alg.id]

/-- Keys of the other algorithms are shown as in the build without the option. -/
theorem C72_shown_others (time : Nat → Bytes) (g : GpgKey) (hp : g.key.pka ≠ 18 ∧ g.key.pka ≠ 19 ∧ g.key.pka ≠ 22) : g.acts time = g.key.acts time := by
  obtain ⟨⟨v, t, p, m, e⟩, c, k1, k2, k3⟩ := g
  simp only at hp
  obtain ⟨h1, h2, h3⟩ := hp
  have hn : ∀ p : UInt8, p ≠ 18 → p ≠ 19 → p ≠ 22 → mapped gpgPkaNames p.toNat = mapped pkaNames p.toNat := by
    have : ∀ n : Fin 256, n ≠ 18 → n ≠ 19 → n ≠ 22 → mapped gpgPkaNames n.val = mapped pkaNames n.val := by decide +kernel
    intro p a b c
    refine this ⟨p.toNat, p.toNat_lt⟩ (fun h => a ?_) (fun h => b ?_) (fun h => c ?_) <;>
      exact UInt8.toNat_inj.mp (congrArg Fin.val h)
  simp only [GpgKey.acts, KeyPkt.acts, gpgPkaLine, pkaLine, hn p h1 h2 h3, if_neg h1, if_neg h2, if_neg h3]

theorem isRSA_alg (a : Alg) : isRSA a.id = false ∧ a.id ≠ 16 ∧ a.id ≠ 17 := by cases a <;> simp only [Alg.id] <;> decide

/-- Of a protected secret key the octets are shown under the name of the algorithm. -/
theorem C72_secret_shown {t : GpgSec} {a : Alg} (ha : t.pub.key.pka = a.id) {s : S2K} (hs : t.s2k = some s) (hc : t.s2kCon = 254 ∨ t.s2kCon = 255) :
    t.privateActs = .ok ([.line (ascii "String-to-Key Usage Conventions: " ++ dec t.s2kCon.toNat),
        .line (ascii "Symmetric Key Algorithm: " ++ mapped symNames t.sym.toNat ++ ascii " (sym " ++ dec t.sym.toNat ++ ascii ")")] ++ s.acts ++
      (match s with | .simple _ => [] | _ => [.line (ascii "IV: " ++ hexlify t.iv)]) ++
      [.line (ascii "Encrypted Data (" ++ dec t.secret.length ++ ascii " octets):"), .down,
        .line (ascii (a.called ++ " x + " ++ (if t.s2kCon = 254 then "SHA1 hash" else "2 Octet Checksum") ++ ": ") ++ hexlify t.secret), .up]) := by
  obtain ⟨pub, con, sym, s2k, iv, secret⟩ := t
  simp only at ha hs hc ⊢
  subst hs
  have c00 : ascii "ECDSA x" ++ ascii " + " ++ ascii "SHA1 hash" ++ ascii ": " = ascii "ECDSA x + SHA1 hash: " := by decide +kernel
  have c01 : ascii "ECDSA x" ++ ascii " + " ++ ascii "2 Octet Checksum" ++ ascii ": " = ascii "ECDSA x + 2 Octet Checksum: " := by decide +kernel
  have c10 : ascii "EdDSA x" ++ ascii " + " ++ ascii "SHA1 hash" ++ ascii ": " = ascii "EdDSA x + SHA1 hash: " := by decide +kernel
  have c11 : ascii "EdDSA x" ++ ascii " + " ++ ascii "2 Octet Checksum" ++ ascii ": " = ascii "EdDSA x + 2 Octet Checksum: " := by decide +kernel
  have c20 : ascii "ECDH x" ++ ascii " + " ++ ascii "SHA1 hash" ++ ascii ": " = ascii "ECDH x + SHA1 hash: " := by decide +kernel
  have c21 : ascii "ECDH x" ++ ascii " + " ++ ascii "2 Octet Checksum" ++ ascii ": " = ascii "ECDH x + 2 Octet Checksum: " := by decide +kernel
  have g1 : (254 : UInt8) > 253 := by decide
  have g2 : (255 : UInt8) > 253 := by decide
  have i1 : isRSA 18 = false := by decide
  have i2 : isRSA 19 = false := by decide
  have i3 : isRSA 22 = false := by decide
  rcases hc with rfl | rfl <;> cases a <;> simp only [Alg.id] at ha <;> cases s <;>
    simp [-List.append_assoc, GpgSec.privateActs, ha, Alg.called, g1, g2, i1, i2, i3, c00, c01, c10, c11, c20, c21]

/-- Without protection the integer of an ECDSA or ECDH key is shown, and the checksum. -/
theorem C72_open_secret_shown {t : GpgSec} {a : Alg} (ha : t.pub.key.pka = a.id) (he : a ≠ .eddsa) (hc : t.s2kCon = 0) {x : Nat} {sum : Bytes} (hs : t.secret = mpiOctets x ++ sum)
    (hl : sum.length = 2) (hx : bitsize x ≤ 65528) :
    t.privateActs = .ok [.line (ascii (a.called ++ " x: (") ++ dec (bitsize x) ++ ascii ") bits: " ++ mpitohex x), .line (ascii "2 Octet Checksum : " ++ hexlify sum)] := by
  obtain ⟨pub, con, sym, s2k, iv, secret⟩ := t
  simp only at ha hs hc ⊢
  subst hc hs
  have hr : readMPI (mpiOctets x ++ sum) 0 = .ok (x, (mpiOctets x).length) := by
    have := readMPI_at (data := mpiOctets x ++ sum) (pos := 0) (rest := sum) rfl hx
    simpa using this
  have hsum : substr (mpiOctets x ++ sum) (mpiOctets x).length 2 = .ok sum := substr_drop (rest := []) (by simp) (by simp) hl
  have hap : ∀ x y : String, ascii (x ++ y) = ascii x ++ ascii y := by
    intro x y; simp [ascii]
  cases a with
  | eddsa => exact absurd rfl he
  | ecdsa =>
    have i1 : isRSA 18 = false := by decide
    have i2 : isRSA 19 = false := by decide
    have c1 : ascii "ECDSA x" ++ ascii ": (" = ascii "ECDSA x: (" := by decide +kernel
    have c3 : ascii "ECDH x" ++ ascii ": (" = ascii "ECDH x: (" := by decide +kernel
    rw [GpgSec.privateActs]
    simp [-mpiOctets_length, -List.append_assoc, ha, Alg.id, i1, i2, hr, hsum, secretLine, Alg.called, c1, c3]
  | ecdh h c =>
    have i1 : isRSA 18 = false := by decide
    have i2 : isRSA 19 = false := by decide
    have c1 : ascii "ECDSA x" ++ ascii ": (" = ascii "ECDSA x: (" := by decide +kernel
    have c3 : ascii "ECDH x" ++ ascii ": (" = ascii "ECDH x: (" := by decide +kernel
    rw [GpgSec.privateActs]
    simp [-mpiOctets_length, -List.append_assoc, ha, Alg.id, i1, i2, hr, hsum, secretLine, Alg.called, c1, c3]

/-- Of an EdDSA key without protection nothing is shown but the number of bits of its secret, under the name of the checksum. -/
theorem C72_eddsa_secret_fails {t : GpgSec} (ha : t.pub.key.pka = 22) (hc : t.s2kCon = 0) {x : Nat} {sum : Bytes} (hs : t.secret = mpiOctets x ++ sum) :
    t.privateActs = .ok [.line (ascii "Unknown"), .line (ascii "2 Octet Checksum : " ++ hexlify (be 2 (bitsize x)))] := by
  obtain ⟨pub, con, sym, s2k, iv, secret⟩ := t
  simp only at ha hs hc ⊢
  subst hc hs
  have hsum : substr (mpiOctets x ++ sum) 0 2 = .ok (be 2 (bitsize x)) := substr_drop (rest := (mpiOctets x).drop 2 ++ sum) (by simp) (by simp [mpiOctets]) (by simp)
  simp [GpgSec.privateActs, ha, isRSA, hsum]

/-- The integers of a signature are shown: with the same lines they are the same. -/
theorem C72_signature_shown {pka : UInt8} (hp : pka = 17 ∨ pka = 19 ∨ pka = 22) (r s r' s' : Nat) (h : gpgSigActs pka [r, s] = gpgSigActs pka [r', s']) : r = r' ∧ s = s' := by
  rcases hp with rfl | rfl | rfl <;>
  · simp only [gpgSigActs] at h
    have h := Out.ok.inj h
    simp only [List.cons.injEq, and_true] at h
    exact ⟨mpiLine_inj h.1, mpiLine_inj h.2⟩

/-- The subpacket with the fingerprint of the issuer is shown whole, but its first line ends in a line feed, so the text has an empty line there. -/
theorem C72_issuer_shown (s s' : Sub33) : (s.acts = s'.acts → s = s') ∧ ∃ a b, s.acts = [.line (a ++ [10]), .line b] := by
  constructor
  · intro h
    simp only [Sub33.acts, List.cons.injEq, Act.line.injEq, and_true] at h
    obtain ⟨h1, h2⟩ := h
    obtain ⟨v, f⟩ := s
    obtain ⟨v', f'⟩ := s'
    simp only at h1 h2
    have h1 := dec8_inj (label_inj _ (List.append_cancel_right h1))
    have h2 := (tail_eq (x := 40) (lab := ascii " (") (a := ascii "Fingerprint: " ++ hexlify f) (b := ascii "Fingerprint: " ++ hexlify f') (by decide +kernel) (dec_not (by decide)) (dec_not (by decide))
      (ascii " octets)") (by simpa using h2)).1
    rw [h1, hexlify_inj (label_inj _ h2)]
  · exact ⟨ascii "Version: " ++ dec s.version.toNat, _, by rw [Sub33.acts]; rfl⟩

/-- An ECDSA key on P-256, an ECDH key and an EdDSA key. -/
example : GpgKey.acts (fun n => dec n) ⟨⟨4, 77, 19, [0x0405], 0⟩, oid [1, 2, 840, 10045, 3, 1, 7], 0, 0, 0⟩ =
    .ok ([ascii "Version: 4 - New", ascii "Creation Time: 77", ascii "Public Key Algorithm: ECDSA (pka 19)", ascii "ECDSA NIST P-256", ascii "ECDSA ec point: 0405"].map .line) := by
  rw [C72_shown (k := ⟨77, .ecdsa, oid [1, 2, 840, 10045, 3, 1, 7], 0x0405⟩) _ ⟨rfl, rfl, rfl, rfl, rfl, by simp⟩ (a := [1, 2, 840, 10045, 3, 1, 7]) (name := "NIST P-256") (by simp [curveCalled]) rfl]
  decide +kernel

example : GpgSec.privateActs ⟨⟨⟨4, 77, 22, [0x0405], 0⟩, oid [1, 3, 6, 1, 4, 1, 11591, 15, 1], 0, 0, 0⟩, 0, 0, none, [], mpiOctets 255 ++ [0, 200]⟩ =
    .ok [.line (ascii "Unknown"), .line (ascii "2 Octet Checksum : 0008")] := by
  rw [C72_eddsa_secret_fails (x := 255) (sum := [0, 200]) rfl rfl rfl]
  decide +kernel

example : GpgSec.privateActs ⟨⟨⟨4, 77, 19, [0x0405], 0⟩, oid [1, 2, 840, 10045, 3, 1, 7], 0, 0, 0⟩, 0, 0, none, [], mpiOctets 255 ++ [0, 200]⟩ =
    .ok [.line (ascii "ECDSA x: (8) bits: ff"), .line (ascii "2 Octet Checksum : 00c8")] := by
  rw [C72_open_secret_shown (a := .ecdsa) (x := 255) (sum := [0, 200]) rfl (by simp) rfl rfl rfl (by decide +kernel)]
  decide +kernel

end OpenPGP
