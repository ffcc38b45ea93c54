import Verif.Model.Commands
import Verif.Props.C36Limits
import Verif.Props.C45
import Verif.Props.C15
import Verif.Spec.Cli

/-!
# A small world for the examples of C56 and C57

A tiny DSA key in a file, its public part in another, and files to sign. `demoCrypto` stands for hashes and ciphers.
-/
namespace OpenPGP.Cli
open OpenPGP Commands

def demoSig (t : UInt8) : Tag2 (SigAt 0) := ⟨4, t, 1, 8, [5], [0, 0], 0, [], [], []⟩

def demoPub : KeyObj (SigAt 0) := ⟨.pub, [⟨.new, false, .publicKey c37Pub⟩, ⟨.new, false, .userId [97]⟩, ⟨.new, false, .sig (demoSig 0x13)⟩]⟩

def demoSec : KeyObj (SigAt 0) := ⟨.sec, [⟨.new, false, .secretKey c36Dsa⟩, ⟨.new, false, .userId [97]⟩, ⟨.new, false, .sig (demoSig 0x13)⟩]⟩

/-- The octets of the public key. -/
def demoPubFile : Bytes :=
  [198, 18, 4, 89, 104, 47, 0, 17, 0, 5, 23, 0, 4, 11, 0, 3, 4, 0, 2, 2, 205, 1, 97, 194, 13, 4, 19, 1, 8, 0, 0, 0, 0, 0, 0, 0, 3, 5]

/-- The octets of the secret key. -/
def demoSecFile : Bytes :=
  [197, 24, 4, 89, 104, 47, 0, 17, 0, 5, 23, 0, 4, 11, 0, 3, 4, 0, 2, 2, 0, 0, 3, 6, 0, 9, 205, 1, 97, 194, 13, 4, 19, 1, 8, 0, 0, 0, 0, 0, 0, 0, 3, 5]

/-- A detached signature over the octets 1, 2, 3. -/
def demoSigFile : Bytes :=
  [194, 32, 4, 0, 17, 8, 0, 6, 5, 2, 0, 0, 0, 7, 0, 10, 9, 16, 23, 23, 23, 23, 23, 23, 23, 23, 33, 33, 0, 3, 7, 0, 2, 3]

/-- The same with another second number. -/
def demoForgedFile : Bytes :=
  [194, 32, 4, 0, 17, 8, 0, 6, 5, 2, 0, 0, 0, 7, 0, 10, 9, 16, 23, 23, 23, 23, 23, 23, 23, 23, 33, 33, 0, 3, 7, 0, 3, 4]

/-- Five files, and a compression that does nothing but write one octet in front. -/
def demo : Env (SigAt 0) where
  cr := demoCrypto
  z := ⟨fun _ d => .ok (0 :: d), fun _ d => .ok (d.drop 1)⟩
  rawE := rawAt 0
  readE := readSigAt 0
  depth := 3
  now := 7
  nonces := [3]
  salt := [1, 2, 3, 4, 5, 6, 7, 8]
  rand := List.replicate 16 9
  sessionKey := List.replicate 32 4
  padding := []
  ephemeral := 5
  files := fun n => [(ascii "pub", demoPubFile), (ascii "sec", demoSecFile), (ascii "sig", demoSigFile), (ascii "forged", demoForgedFile),
    (ascii "doc", [1, 2, 3])].lookup n
  date := fun _ => []
  shown := ⟨fun _ => [], fun _ => 0, fun _ => 0, fun i => i, fun _ => false⟩
  showE := fun _ => .throw
  genRand := c45Rand
  genNonces := [[3, 4, 5]]
  genSubs := [(c45Rand, [3, 4, 5])]
  canWrite := fun n => n ≠ ascii "closed.private"

theorem demo_pub : demo.files (ascii "pub") = some demoPubFile ∧ keyOf demo.readE demoPubFile = .ok ([], demoPub) := ⟨by decide +kernel, by decide +kernel⟩

theorem demo_sec : demo.files (ascii "sec") = some demoSecFile ∧ keyOf demo.readE demoSecFile = .ok ([], demoSec) := ⟨by decide +kernel, by decide +kernel⟩

/-- A line of words only. -/
def plainLine (ws : List Bytes) : Line := ⟨ws.map .word, none⟩

theorem plainLine_spell (ws : List Bytes) : (plainLine ws).spell = ws := by
  simp only [plainLine, Line.spell, List.append_nil]
  induction ws with
  | nil => rfl
  | cons w ws ih => rw [List.map_cons, List.flatMap_cons, ih]; rfl

theorem plainLine_words (ws : List Bytes) : (plainLine ws).words = ws := by
  simp only [plainLine, Line.words, Option.getD_none, List.append_nil]
  induction ws with
  | nil => rfl
  | cons w ws ih => rw [List.map_cons, List.filterMap_cons]; exact congrArg (w :: ·) ih

theorem plainLine_fits (ws : List Bytes) (opts : List (Bytes × Bytes)) (flags : List (Bytes × Bool))
    (h : ∀ w ∈ ws, w ∉ opts.map Prod.fst ∧ w ∉ flags.map Prod.fst ∧ w ≠ [45, 45]) : (plainLine ws).fits opts flags := by
  intro i hi
  obtain ⟨w, hw, rfl⟩ := List.mem_map.mp hi
  exact h w hw

end OpenPGP.Cli
