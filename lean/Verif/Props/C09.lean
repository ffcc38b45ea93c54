import Verif.Lemmas.Subpacket

/-!
# C09: known subpacket bodies survive write and read

`C09_body_partial` is the property for all 24 kinds, for field values of the sizes RFC 4880 prescribes, except the two
listed as failing below.
-/
namespace OpenPGP
variable {E : Type}

/-- Field values of the sizes RFC 4880 prescribes (32-bit times, four flag octets, 16-bit name and value lengths,
20-octet fingerprints, regular expressions without NUL at the end, since they are NUL-terminated). -/
def SubBody.wellSized (b : SubBody E) : Prop :=
  match b with
  | .sigTime t => t < 2 ^ 32
  | .sigExpire t => t < 2 ^ 32
  | .keyExpire t => t < 2 ^ 32
  | .regex r => r.getLast? ≠ some 0
  | .revKey _ _ f => f.length = 20
  | .«notation» f m n => f.length = 4 ∧ m.length < 2 ^ 16 ∧ n.length < 2 ^ 16
  | _ => True

/-- Reading the body written for a subpacket, into a fresh object of its type, restores every field. Missing: notation
data with a name or a value, signature targets with no hash octets (both fail, see below); an embedded signature
must itself be readable. -/
theorem C09_body_partial (readE : Bytes → Out E) (rawE : E → Bytes) (b : SubBody E) (hw : b.wellSized)
    (h20 : ∀ f m n, b = .«notation» f m n → m = [] ∧ n = [])
    (h31 : ∀ p h, b ≠ .target p h [])
    (h32 : ∀ e, b = .embedded (some e) → rawE e ≠ [] ∧ readE (rawE e) = .ok e) :
    ∃ fresh, SubBody.default b.type = some fresh ∧ SubBody.read readE fresh (b.raw rawE) = .ok b := by
  apply read_raw
  cases b with
  | «notation» f m n => exact ⟨hw.1, h20 f m n rfl⟩
  | target p h s => intro hs; exact h31 p h (by rw [hs])
  | embedded e =>
    cases e with
    | none => trivial
    | some e => exact h32 e rfl
  | _ => exact hw

example : (SubBody.revKey 0x80 17 (List.replicate 20 7) : SubBody Empty).wellSized := rfl
example : (SubBody.regex [94, 97, 36] : SubBody Empty).wellSized := by simp [SubBody.wellSized]

/-- Full property fails for notation data (subpacket 20): name and value are *always* lost, because the reader
wants more octets than the announced lengths (`>` where `≥` is meant, Sub20.cpp:13). -/
theorem C09_notation_fails (readE : Bytes → Out E) (rawE : E → Bytes) (f m n : Bytes) (hf : f.length = 4)
    (hm : m.length < 2 ^ 16) (hn : n.length < 2 ^ 16) :
    SubBody.read readE (.«notation» [] [] []) ((SubBody.«notation» f m n).raw rawE) = .ok (.«notation» f [] []) := by
  have e4 : ((f ++ be 2 m.length ++ be 2 n.length ++ m ++ n).drop 4).take 2 = be 2 m.length := by
    rw [show f ++ be 2 m.length ++ be 2 n.length ++ m ++ n = f ++ (be 2 m.length ++ (be 2 n.length ++ m ++ n)) by simp]
    rw [List.drop_left' hf, List.take_left' (be_length 2 _)]
  have e6 : ((f ++ be 2 m.length ++ be 2 n.length ++ m ++ n).drop 6).take 2 = be 2 n.length := by
    rw [show f ++ be 2 m.length ++ be 2 n.length ++ m ++ n = (f ++ be 2 m.length) ++ (be 2 n.length ++ (m ++ n)) by simp]
    rw [List.drop_left' (by simp [hf]), List.take_left' (be_length 2 _)]
  have hl : (f ++ be 2 m.length ++ be 2 n.length ++ m ++ n).length = 8 + m.length + n.length := by
    simp [hf]; omega
  have n1 : num (be 2 m.length) = m.length := by rw [num_be]; exact Nat.mod_eq_of_lt hm
  have n2 : num (be 2 n.length) = n.length := by rw [num_be]; exact Nat.mod_eq_of_lt hn
  have ht : (f ++ be 2 m.length ++ be 2 n.length ++ m ++ n).take 4 = f := by
    rw [show f ++ be 2 m.length ++ be 2 n.length ++ m ++ n = f ++ (be 2 m.length ++ (be 2 n.length ++ m ++ n)) by simp]
    rw [List.take_left' hf]
  rw [SubBody.read, if_neg (by intro hc; have := congrArg List.length hc; simp only [SubBody.raw] at this; rw [hl] at this; simp at this)]
  simp only [SubBody.actualRead, SubBody.raw, e4, e6, n1, n2, ht]
  rw [if_pos (by omega), if_neg (by omega)]

example : (SubBody.«notation» [0x80, 0, 0, 0] [97] [98] : SubBody Empty).wellSized := by simp [SubBody.wellSized]

/-- Full property fails for a signature target (subpacket 31) without hash octets: the algorithms are lost. -/
theorem C09_target_fails (readE : Bytes → Out E) (rawE : E → Bytes) (p h : UInt8) :
    SubBody.read readE (.target 0 0 []) ((SubBody.target p h []).raw rawE) = .ok (.target 0 0 []) := rfl

/-- Trailing NULs of a regular expression do not survive, however many there are. -/
theorem C09_regex_nul (readE : Bytes → Out E) (rawE : E → Bytes) (r : Bytes) (k : Nat) (hr : r.getLast? ≠ some 0) :
    SubBody.read readE (.regex []) ((SubBody.regex (r ++ List.replicate k 0)).raw rawE) = .ok (.regex r) := by
  rw [SubBody.read, if_neg (by simp [SubBody.raw])]
  simp only [SubBody.actualRead, SubBody.raw]
  congr 2
  rw [List.append_assoc, ← List.replicate_succ']
  induction k with
  | zero => exact stripNul_snoc r hr
  | succ k ih =>
    rw [List.replicate_succ' (n := k + 1), ← List.append_assoc]
    unfold SubBody.stripNul at ih ⊢
    rw [List.reverse_append, List.reverse_singleton, List.singleton_append, List.dropWhile_cons]
    simpa using ih

/-- Damaged bodies never throw or read outside: every kind except embedded signatures is read without failure,
whatever the octets. -/
theorem C09_total (readE : Bytes → Out E) (fresh : SubBody E) (d : Bytes) (hE : ∀ e, fresh ≠ .embedded e) :
    ∃ b, SubBody.read readE fresh d = .ok b ∧ b.type = fresh.type := by
  unfold SubBody.read
  split
  · exact ⟨_, rfl, rfl⟩
  · cases fresh with
    | embedded e => exact absurd rfl (hE e)
    | trust l a => exact ⟨_, rfl, by split <;> rfl⟩
    | revKey c p f => exact ⟨_, rfl, by split <;> rfl⟩
    | target c p f => exact ⟨_, rfl, by split <;> rfl⟩
    | «notation» c p f => exact ⟨_, rfl, by dsimp only; split_ifs <;> rfl⟩
    | _ => exact ⟨_, rfl, rfl⟩

end OpenPGP
