import Verif.Model.CipherBase

/-!
# What users expect of a block cipher object

`SymCipher` and `CipherCall` describe the interface only (construct with a key, encrypt, decrypt).
-/
namespace OpenPGP

/-- With this key the class constructs an object which encrypts every block to a block and decrypts what it encrypted
(called on the object that encrypted, or on another new object); a new object encrypts what a new object decrypted, so
encryption is a permutation of the blocks; and data of any other size makes both throw. -/
def SymCipher.InvertsWith {S : Type} (c : SymCipher S) (key : Bytes) : Prop :=
  ∃ o, c.make key = .ok o ∧
    (∀ b : Bytes, 8 * b.length = c.blocksize →
      (∃ e, (c.encrypt o b).2 = .ok e ∧ e.length = b.length ∧
        (c.decrypt (c.encrypt o b).1 e).2 = .ok b ∧ (c.decrypt o e).2 = .ok b) ∧
      (∃ d, (c.decrypt o b).2 = .ok d ∧ d.length = b.length ∧ (c.encrypt o d).2 = .ok b)) ∧
    (∀ b : Bytes, 8 * b.length ≠ c.blocksize → (c.encrypt o b).2 = .throw ∧ (c.decrypt o b).2 = .throw)

/-- With this key, any sequence of calls on one object (exceptions being caught by the caller) shows for each call what
a freshly constructed object would show. -/
def SymCipher.NoMemoryWith {S : Type} (c : SymCipher S) (key : Bytes) : Prop :=
  ∃ o, c.make key = .ok o ∧ ∀ calls : List CipherCall, c.run calls o = calls.map fun k => (c.call o k).2

/-- The same for the histories in which no call is given data of the wrong size. -/
def SymCipher.NoMemoryOnBlocksWith {S : Type} (c : SymCipher S) (key : Bytes) : Prop :=
  ∃ o, c.make key = .ok o ∧ ∀ calls : List CipherCall,
    (∀ k ∈ calls, match k with
      | .encrypt b => 8 * b.length = c.blocksize
      | .decrypt b => 8 * b.length = c.blocksize) →
    c.run calls o = calls.map fun k => (c.call o k).2

end OpenPGP
