import Verif.Model.Copy

/-!
# Programs that work on objects

A program has some pointers. It can follow one that it has (members like `get_packets`, `get_s2k`, `get_hashed_subpackets`, `get_embedded` return the pointers inside an
object), make a new object, and change an object it has a pointer to in any way (all setters are such changes); the pointers it puts into objects are ones it has.
-/
namespace OpenPGP

/-- The pointers a program has, and the memory. -/
structure ProgState where
  has : Nat → Prop
  mem : Heap

/-- One step of a program. -/
inductive ProgStep : ProgState → ProgState → Prop
  | follow (s : ProgState) (a b : Nat) (c : Cell) : s.has a → s.mem[a]? = some c → b ∈ c.pointers → ProgStep s ⟨fun x => s.has x ∨ x = b, s.mem⟩
  | make (s : ProgState) (c : Cell) : (∀ p ∈ c.pointers, s.has p) → ProgStep s ⟨fun x => s.has x ∨ x = s.mem.length, s.mem ++ [c]⟩
  | change (s : ProgState) (a : Nat) (c : Cell) : s.has a → (∀ p ∈ c.pointers, s.has p) → ProgStep s ⟨s.has, s.mem.set a c⟩

/-- Any number of steps. -/
inductive ProgRun : ProgState → ProgState → Prop
  | stop (s : ProgState) : ProgRun s s
  | step (s t u : ProgState) : ProgRun s t → ProgStep t u → ProgRun s u

/-- No object points outside the memory. -/
def NoDangling (h : Heap) : Prop := ∀ (i : Nat) c, h[i]? = some c → ∀ p ∈ c.pointers, p < h.length

end OpenPGP
