import Verif.Props.C57Signed
import Verif.Props.C57Demo

/-!
# The hypotheses of C58 and of the signed part of C57 are met
-/
namespace OpenPGP.Cli
open OpenPGP OpenPGP.Cli.Module Commands Rfc

/-- The file `doc` of the small world, AES256, not compressed, SHA-1. -/
def demoDoc : EncArgs := ⟨ascii "doc", [1, 2, 3], 9, 0, true, 2⟩

theorem demoDoc_usable : demoDoc.Usable 32 16 := ⟨rfl, rfl, by decide, rfl, by decide +kernel⟩

theorem demo_signedData : ∃ m0, SignedData 0 demo.toWorld demoDoc demoSec [] demoPub m0 := by
  have h : (match signBinary demo.cr demo.z demo.rawE demo.readE demo.depth ⟨demoSec, [], 4, 2⟩ demo.now demo.nonces (ascii "doc") [1, 2, 3] 0 with
    | .ok _ => true | _ => false) = true := by decide +kernel
  obtain ⟨m0, hm⟩ : ∃ m0, signBinary demo.cr demo.z demo.rawE demo.readE demo.depth ⟨demoSec, [], 4, 2⟩ demo.now demo.nonces (ascii "doc") [1, 2, 3] 0 = .ok m0 := by
    generalize signBinary demo.cr demo.z demo.rawE demo.readE demo.depth ⟨demoSec, [], 4, 2⟩ demo.now demo.nonces (ascii "doc") [1, 2, 3] 0 = o at h ⊢
    cases o with
    | ok s => exact ⟨s, rfl⟩
    | _ => cases h
  exact ⟨m0, ⟨_, _, _, demo_canSign, by unfold SmallKey; decide +kernel⟩, by decide +kernel, hm, by decide +kernel, by unfold readableLen; decide +kernel,
    fun h => absurd rfl h, fun h => absurd rfl h⟩

/-- C58: the file is signed and encrypted with a passphrase, and comes back signed. -/
example : ∃ d m r, encryptSymS demo.toWorld demoDoc (some (demoSec, [])) (ascii "secret") 2 = .ok m ∧
    m = ⟨none, [⟨.new, false, .skesk ⟨4, 9, some (.iterated 2 demo.salt 96), none⟩⟩, ⟨.new, false, .seip 1 d⟩]⟩ ∧
    decryptSym demo.cr demo.z demo.readE 2 m (ascii "secret") = .ok r ∧ IsSigned 0 demo.toWorld demoDoc demoPub r := by
  obtain ⟨m0, h⟩ := demo_signedData
  exact C58_sym 0 demo.toWorld rfl rfl demoCrypto_ok (by decide) demoDoc 32 16 20 demoDoc_usable demoSec [] demoPub m0 h rfl rfl 2 rfl (ascii "secret") 2 (by decide)

/-- The premise of `C58_unsigned` is met by a public key. -/
example : signBinary demo.cr demo.z demo.rawE demo.readE demo.depth ⟨demoPub, [], 4, 2⟩ demo.now demo.nonces (ascii "doc") [1, 2, 3] 0 = .ok .empty := by decide +kernel

/-- `encrypt-sym -c UNCOMPRESSED --sign sec doc secret > out`, then `decrypt-sym -s pub out secret`. -/
example : ∃ out, main (ordered demo) [ascii "encrypt-sym", ascii "-c", ascii "UNCOMPRESSED", ascii "--sign", ascii "sec", ascii "doc", ascii "secret"] = .ok ⟨0, out⟩ ∧
    main (ordered (demoWith out)) [ascii "decrypt-sym", ascii "-s", ascii "pub", ascii "out", ascii "secret"] =
      .ok ⟨0, [1, 2, 3] ++ ascii "\n\n" ++ signedLine (ascii "pub") (List.replicate 8 23)⟩ := by
  obtain ⟨m0, hsd⟩ := demo_signedData
  have key : ∀ e' : Env (SigAt 0), SameLib 0 demo e' → 2 ≤ e'.depth → e'.files (ascii "pub") = some demoPubFile →
      ∃ out, main (ordered demo) [ascii "encrypt-sym", ascii "-c", ascii "UNCOMPRESSED", ascii "--sign", ascii "sec", ascii "doc", ascii "secret"] = .ok ⟨0, out⟩ ∧
        (e'.files (ascii "out") = some out → main (ordered e') [ascii "decrypt-sym", ascii "-s", ascii "pub", ascii "out", ascii "secret"] =
          .ok ⟨0, [1, 2, 3] ++ ascii "\n\n" ++ signedLine (ascii "pub") (List.replicate 8 23)⟩) := by
    intro e' same hdep hpub
    have hl : (Line.mk [.opt (ascii "-c") (ascii "UNCOMPRESSED"), .opt (ascii "--sign") (ascii "sec"), .word (ascii "doc"), .word (ascii "secret")] none).fits
        (Commands.encryptSym demo).opts (Commands.encryptSym demo).flags := by
      intro i hi
      simp only [List.mem_cons, List.not_mem_nil, or_false] at hi
      rcases hi with rfl | rfl | rfl | rfl <;> simp only [Item.fits, Commands.encryptSym] <;> decide +kernel
    have hl' : (Line.mk [.opt (ascii "-s") (ascii "pub"), .word (ascii "out"), .word (ascii "secret")] none).fits
        (Commands.decryptSym e').opts (Commands.decryptSym e').flags := by
      intro i hi
      simp only [List.mem_cons, List.not_mem_nil, or_false] at hi
      rcases hi with rfl | rfl | rfl <;> simp only [Item.fits, Commands.decryptSym] <;> decide +kernel
    refine C57_sym_signed 0 demo e' same demoCrypto_ok (by decide) _ hl (by simp) (ascii "doc") (ascii "secret") [1, 2, 3] (by decide +kernel) (by decide +kernel)
      demoDoc ⟨rfl, rfl⟩ 2 (ascii "sec") [] ⟨by decide +kernel, by decide +kernel, by decide +kernel, by decide +kernel, by decide +kernel, by decide +kernel,
        by decide +kernel, by decide +kernel, by decide +kernel⟩ 32 16 demoDoc_usable demoSecFile demo_sec.1 [] demoSec demoPub demo_sec.2 rfl m0 hsd rfl rfl ?_ hdep _ hl'
      (by simp) (ascii "out") (by decide +kernel) (ascii "pub") (by decide +kernel) (by decide +kernel) demoPubFile hpub []
      (by rw [same.readE', ← same.readE]; exact demo_pub.2) rfl (List.replicate 8 23) (by decide +kernel)
    intro m d hm hd
    have h : (match encryptSymS demo.toWorld demoDoc (some (demoSec, [])) (ascii "secret") 2 with
      | .ok m => (match firstEncrypted m.packets with | some (_, d) => decide (d.length < 190) | none => false)
      | _ => false) = true := by decide +kernel
    rw [hm] at h
    dsimp only at h
    rw [hd] at h
    have h : d.length < 190 := by simpa using h
    simp only [readableLen, demoDoc, if_true]
    omega
  obtain ⟨out, h1, -⟩ := key demo ⟨rfl, rfl, rfl, rfl, rfl, rfl⟩ (by decide) demo_pub.1
  obtain ⟨out', h1', h2⟩ := key (demoWith out) (demo_same out) (show 2 ≤ demo.depth by decide) (show demo.files (ascii "pub") = _ by decide +kernel)
  obtain rfl : out = out' := (Ran.mk.inj (Out.ok.inj (h1.symm.trans h1'))).2
  exact ⟨out, h1, h2 (demo_out out)⟩

end OpenPGP.Cli
