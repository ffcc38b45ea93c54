import Verif.Props.C57Crypt
import Verif.Props.CliDemo

/-!
# The hypotheses of C57 are met

A file is signed and encrypted with the keys of `CliDemo`, and the other commands accept what was printed.
-/
namespace OpenPGP.Cli
open OpenPGP OpenPGP.Cli.Module Commands Rfc

def demoArgs : SignArgs (SigAt 0) := ⟨demoSec, [], 4, 2⟩

theorem demo_canSign : CanSign demoCrypto demoArgs [] c36Dsa [6] where
  sec := rfl
  meaningful := by decide +kernel
  sound := by
    have hp : ∀ p ∈ demoSec.packets, p.body = .secretKey c36Dsa ∨ (p.body.secretPart = none ∧ p.body.keyPart = none) := by
      simp [demoSec, Body.secretPart, Body.keyPart]
    intro p hp' t ht
    rcases hp p hp' with h | h
    · rw [h] at ht
      obtain rfl := Option.some.inj ht
      exact ⟨Or.inl ⟨rfl, by decide +kernel, by decide +kernel, by decide +kernel, rfl⟩, by decide +kernel⟩
    · rw [h.1] at ht
      cases ht
  sized := by
    have hp : ∀ p ∈ demoSec.packets, p.body = .secretKey c36Dsa ∨ (p.body.secretPart = none ∧ p.body.keyPart = none) := by
      simp [demoSec, Body.secretPart, Body.keyPart]
    intro p hp' kp hk n hn
    rcases hp p hp' with h | h
    · rw [h] at hk
      obtain rfl := Option.some.inj hk
      have hall : ∀ n ∈ c37Pub.mpi, n.log2 < 2 ^ 32 := by decide +kernel
      exact hall n hn
    · rw [h.2] at hk
      cases hk
  packets := ⟨_, _, rfl, rfl⟩
  first := by simp
  opens := by decide +kernel
  pair := Or.inr ⟨rfl, 23, 11, 4, 2, 6, by norm_num, by decide, by norm_num, by decide, rfl, rfl, by decide⟩

/-- `sec "" doc`. -/
def demoLine : Line := plainLine [ascii "sec", [], ascii "doc"]

theorem demo_signer : Signer 0 demo demoLine (ascii "sec") [] demoArgs c36Dsa demoPub where
  key := ⟨_, _, demo_sec.1, demo_sec.2⟩
  pass := rfl
  version := rfl
  hash := by decide +kernel
  can := ⟨_, demo_canSign⟩
  small := by unfold SmallKey; decide +kernel
  pub := by decide +kernel

/-- The same library with the output of a command in the file `out`. -/
def demoWith (out : Bytes) : Env (SigAt 0) := { demo with files := fun n => if n = ascii "out" then some out else demo.files n }

theorem demo_same (out : Bytes) : SameLib 0 demo (demoWith out) := ⟨rfl, rfl, rfl, rfl, rfl, rfl⟩

theorem demo_out (out : Bytes) : (demoWith out).files (ascii "out") = some out := by
  simp only [demoWith, if_true]

theorem demo_fits (ws : List Bytes) (opts : List (Bytes × Bytes)) (flags : List (Bytes × Bool)) (h : (ws.all fun w => w ∉ opts.map Prod.fst ∧ w ∉ flags.map Prod.fst ∧ w ≠ [45, 45]) = true) :
    (plainLine ws).fits opts flags := plainLine_fits ws opts flags (by simpa using h)

/-- `sign-detached-signature sec "" doc > out`, then `verify-detached-signature pub doc out`. -/
example : ∃ out, main (ordered demo) [ascii "sign-detached-signature", ascii "sec", [], ascii "doc"] = .ok ⟨0, out⟩ ∧
    main (ordered (demoWith out)) [ascii "verify-detached-signature", ascii "pub", ascii "doc", ascii "out"] =
      .ok ⟨0, ascii "File \"doc\" was signed by \"pub\" (1717171717171717).\n"⟩ := by
  have hl : demoLine.fits (signDetachedSignature demo).opts (signDetachedSignature demo).flags := demo_fits _ _ _ (by simp only [signDetachedSignature]; decide +kernel)
  have hw : demoLine.words.take 3 = [ascii "sec", [], ascii "doc"] := by rw [demoLine, plainLine_words]; rfl
  have hd : [45, 45] ∉ demoLine.verbatim.getD [] := by simp [demoLine, plainLine]
  have ha : ¬ demoLine.has (ascii "-a") := by decide +kernel
  obtain ⟨out, hout⟩ : ∃ out, main (ordered demo) (ascii "sign-detached-signature" :: demoLine.spell) = .ok ⟨0, out⟩ := by
    obtain ⟨p, ht, hr⟩ := C56_command demo (signDetachedSignature demo) (by simp [ordered]) demoLine hl hd (by rw [demoLine, plainLine_words]; exact Nat.le_refl 3)
    have ho : (signDetachedSignature demo).opts.lookup (ascii "-h") = some (ascii "SHA1") := List.lookup_cons_self
    have hrun : ∀ q, (signDetachedSignature demo).run q = signing demo q (.ok true) fun a _ f =>
        (do let s ← signDetached demo.cr demo.rawE a demo.now demo.nonces f
            if s.type ≠ 6 ∨ s.packets.length ≠ 1 then failed else printObj demo q s) := fun q => rfl
    have a1 : p.flag "-a" = .ok true := by
      have := ht.flag (ascii "-a") true (show List.lookup _ [_] = _ by decide +kernel)
      rw [if_neg ha] at this
      exact flag_ok this
    have hsd : ∃ s, signDetached demo.cr demo.rawE demoArgs demo.now demo.nonces [1, 2, 3] = .ok s ∧ s.type = 6 ∧ s.packets.length = 1 ∧
        ∃ t, writeObj demo.rawE s .yes = .ok t := by
      have h : (match signDetached demo.cr demo.rawE demoArgs demo.now demo.nonces [1, 2, 3] with
        | .ok s => decide (s.type = 6) && decide (s.packets.length = 1) && (match writeObj demo.rawE s .yes with | .ok _ => true | _ => false)
        | _ => false) = true := by decide +kernel
      generalize signDetached demo.cr demo.rawE demoArgs demo.now demo.nonces [1, 2, 3] = o at h ⊢
      cases o with
      | ok s =>
        simp only [Bool.and_eq_true, decide_eq_true_eq] at h
        refine ⟨s, rfl, h.1.1, h.1.2, ?_⟩
        have h := h.2
        generalize writeObj demo.rawE s .yes = w at h ⊢
        cases w with
        | ok t => exact ⟨t, rfl⟩
        | _ => cases h
      | _ => cases h
    obtain ⟨s, h1, h2, h3, t, h4⟩ := hsd
    refine ⟨t ++ [10], ((hr ⟨0, _⟩).trans ends_iff).mpr ?_⟩
    rw [hrun, signing_eq demo_signer ht rfl ho hw (show demo.files (ascii "doc") = some [1, 2, 3] by decide +kernel), Out.ok_bind, Bool.not_true, if_neg (by decide), h1,
      Out.ok_bind, if_neg (by rw [h2, h3]; decide), printObj, a1, Out.ok_bind, armorOf, if_pos rfl, h4, Out.ok_bind, ends_printed]
  refine ⟨out, by rw [← plainLine_spell [ascii "sec", [], ascii "doc"]]; exact hout, ?_⟩
  have hl' : (plainLine [ascii "pub", ascii "doc", ascii "out"]).fits (verifyDetachedSignature (demoWith out)).opts (verifyDetachedSignature (demoWith out)).flags :=
    demo_fits _ [] [] (by decide +kernel)
  obtain ⟨id, hid, h⟩ := C57_detached 0 demo (demoWith out) (demo_same out) demoCrypto_ok (by decide) demoLine hl hd ha (ascii "sec") [] (ascii "doc") [1, 2, 3] hw
    demoArgs c36Dsa demoPub demo_signer (by decide +kernel) (by decide +kernel) out hout _ hl' (by simp [plainLine]) (ascii "pub") (ascii "doc") (ascii "out")
    (by rw [plainLine_words]; rfl) demoPubFile (show demo.files (ascii "pub") = _ by decide +kernel) [] demo_pub.2
    (show demo.files (ascii "doc") = _ by decide +kernel) (demo_out out)
  obtain rfl : List.replicate 8 23 = id := Out.ok.inj ((show demoPub.keyid demo.cr = .ok (List.replicate 8 23) by decide +kernel).symm.trans hid)
  rw [plainLine_spell] at h
  rw [h]
  decide +kernel

/-- `encrypt-sym -c UNCOMPRESSED doc secret > out`, then `decrypt-sym out secret`. -/
example : ∃ out, main (ordered demo) [ascii "encrypt-sym", ascii "-c", ascii "UNCOMPRESSED", ascii "doc", ascii "secret"] = .ok ⟨0, out⟩ ∧
    main (ordered (demoWith out)) [ascii "decrypt-sym", ascii "out", ascii "secret"] = .ok ⟨0, [1, 2, 3] ++ ascii "\n\n\n"⟩ := by
  have key : ∀ e' : Env (SigAt 0), SameLib 0 demo e' → 2 ≤ e'.depth →
      ∃ out, main (ordered demo) [ascii "encrypt-sym", ascii "-c", ascii "UNCOMPRESSED", ascii "doc", ascii "secret"] = .ok ⟨0, out⟩ ∧
        (e'.files (ascii "out") = some out → main (ordered e') [ascii "decrypt-sym", ascii "out", ascii "secret"] = .ok ⟨0, [1, 2, 3] ++ ascii "\n\n\n"⟩) := by
    intro e' same hdep
    have hl : (Line.mk [.opt (ascii "-c") (ascii "UNCOMPRESSED"), .word (ascii "doc"), .word (ascii "secret")] none).fits (Commands.encryptSym demo).opts
        (Commands.encryptSym demo).flags := by
      intro i hi
      simp only [List.mem_cons, List.not_mem_nil, or_false] at hi
      rcases hi with rfl | rfl | rfl <;> simp only [Item.fits, Commands.encryptSym] <;> decide +kernel
    have hl' : (plainLine [ascii "out", ascii "secret"]).fits (Commands.decryptSym e').opts (Commands.decryptSym e').flags :=
      demo_fits _ [(ascii "-s", [])] [] (by decide +kernel)
    have h := C57_sym 0 demo e' same demoCrypto_ok _ hl (by simp) (ascii "doc") (ascii "secret") [1, 2, 3] (by decide +kernel) (by decide +kernel)
      ⟨ascii "doc", [1, 2, 3], 9, 0, true, 2⟩ ⟨rfl, rfl⟩ 2 ⟨by decide +kernel, by decide +kernel, by decide +kernel, by decide +kernel, by decide +kernel, by decide +kernel, by decide +kernel⟩
      (fun h => absurd rfl h) ⟨by unfold readableLen; decide +kernel, fun h => absurd rfl h⟩ 32 16 ⟨rfl, rfl, by decide, rfl, by decide +kernel⟩ rfl rfl ?_ hdep _ hl'
      (by simp [plainLine]) (ascii "out") (by rw [plainLine_words]; rfl) (by decide +kernel)
    · rw [plainLine_spell] at h
      exact h
    · intro m d hm hd
      have h : (match OpenPGP.encryptSym demo.cr demo.z demo.rawE ⟨ascii "doc", [1, 2, 3], 9, 0, true, 2⟩ demo.salt demo.rand (ascii "secret") 2 with
        | .ok m => (match firstEncrypted m.packets with | some (_, d) => decide (d.length < 200) | none => false)
        | _ => false) = true := by decide +kernel
      rw [hm] at h
      dsimp only at h
      rw [hd] at h
      have h : d.length < 200 := by simpa using h
      simp only [readableLen, if_true]
      omega
  obtain ⟨out, h1, -⟩ := key demo ⟨rfl, rfl, rfl, rfl, rfl, rfl⟩ (by decide)
  obtain ⟨out', h1', h2⟩ := key (demoWith out) (demo_same out) (show 2 ≤ demo.depth by decide)
  obtain rfl : out = out' := by
    have := Out.ok.inj (h1.symm.trans h1')
    exact (Ran.mk.inj this).2
  exact ⟨out, h1, h2 (demo_out out)⟩

/-- A text with an escaped line, blanks at line ends, a carriage return and an inner blank line has the form that `C57_cleartext` asks for. -/
example : (∀ x, (getlines (ascii "- a \n\nb\r\nc\t")).getLast? = some x → rtrim x ≠ []) ∧
    ∀ x ∈ getlines (ascii "- a \n\nb\r\nc\t"), rtrim x = stripLine x ∨ x = rtrim x ++ [13] := by
  refine ⟨?_, by decide +kernel⟩
  intro x hx
  have : (getlines (ascii "- a \n\nb\r\nc\t")).getLast? = some (ascii "c\t") := by decide +kernel
  obtain rfl := Option.some.inj (this.symm.trans hx)
  decide +kernel

end OpenPGP.Cli
