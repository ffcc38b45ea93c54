import Verif.Lemmas.Subpacket

/-!
# C08: signature subpacket lists survive write and read

`C08_list_partial` covers every list of the subpackets the library knows, of any number and any size below 2^32,
critical or not. The theorem is partial because two kinds of field values do not survive (see C09: notation data, and
signature targets without hash octets). Embedded signatures are the parameter `E`; `C10` supplies the real one.
-/
namespace OpenPGP
variable {E : Type}

/-- Reading a written list of subpackets gives the list, in order, with the critical bits. -/
theorem C08_list_partial (readE : Bytes → Out E) (rawE : E → Bytes) (l : List (Sub E))
    (h : ∀ s ∈ l, s.body.survives readE rawE) (hn : ∀ s ∈ l, (s.body.raw rawE).length + 1 < 2 ^ 32) :
    readSubpackets readE (writeSubpackets rawE l) = .ok l :=
  readSubpackets_write readE rawE l h hn

example : ∀ s ∈ [(⟨false, .sigTime 1234567⟩ : Sub Empty), ⟨true, .policy [104, 116, 116, 112]⟩,
      ⟨false, .issuer [1, 2, 3, 4, 5, 6, 7, 8]⟩, ⟨true, .keyFlags []⟩],
    s.body.survives (fun _ => .throw) (fun e => e.elim) ∧ (s.body.raw (fun e => e.elim)).length + 1 < 2 ^ 32 := by
  intro s hs
  simp only [List.mem_cons, List.not_mem_nil, or_false] at hs
  rcases hs with rfl | rfl | rfl | rfl <;> simp [SubBody.survives, SubBody.raw]

/-- Serialisation is injective: two different lists of (surviving) subpackets have different octets. -/
theorem C08_injective_partial (readE : Bytes → Out E) (rawE : E → Bytes) (l l' : List (Sub E))
    (h : ∀ s ∈ l ++ l', s.body.survives readE rawE)
    (hn : ∀ s ∈ l ++ l', (s.body.raw rawE).length + 1 < 2 ^ 32)
    (he : writeSubpackets rawE l = writeSubpackets rawE l') : l = l' := by
  have h1 := C08_list_partial readE rawE l (fun s hs => h s (by simp [hs])) (fun s hs => hn s (by simp [hs]))
  have h2 := C08_list_partial readE rawE l' (fun s hs => h s (by simp [hs])) (fun s hs => hn s (by simp [hs]))
  rw [he, h2] at h1
  exact (Out.ok.inj h1).symm

/-- The length octets written for each subpacket are those of RFC 4880, 5.2.3.1: one octet below 192, two octets
below 8383 (the RFC allows two up to 16319), otherwise 255 and four octets. -/
theorem C08_length_format (rawE : E → Bytes) (s : Sub E) :
    let n := (s.body.raw rawE).length + 1
    s.write rawE =
      (if n < 192 then [UInt8.ofNat n]
       else if n < 8383 then [UInt8.ofNat (192 + (n - 192) / 256), UInt8.ofNat ((n - 192) % 256)]
       else [255, UInt8.ofNat (n / 2 ^ 24), UInt8.ofNat (n / 2 ^ 16), UInt8.ofNat (n / 2 ^ 8), UInt8.ofNat n])
      ++ [UInt8.ofNat (s.body.type + if s.critical then 128 else 0)] ++ s.body.raw rawE := by
  have h256 : ∀ a : Nat, UInt8.ofNat (a % 256) = UInt8.ofNat a := by
    intro a; apply UInt8.toNat_inj.mp; simp
  intro n
  simp only [Sub.write, List.length_cons, subLengthOctets]
  change (if n < 192 then _ else _) ++ _ = _
  by_cases h1 : n < 192
  · rw [if_pos h1, if_pos h1]; simp [n]
  · rw [if_neg h1, if_neg h1]
    by_cases h2 : n < 8383
    · rw [if_pos h2, if_pos h2, Nat.add_comm 192, h256]; simp [n]
    · rw [if_neg h2, if_neg h2, be_four]
      simp [n, Nat.div_div_eq_div_mul]

/-- An area with a subpacket of a type the library does not know is refused (here a single one of that type). -/
theorem C08_unknown_type_throws (readE : Bytes → Out E) (t : UInt8) (body : Bytes) (hl : body.length < 191)
    (ht : SubBody.default (E := E) (t &&& 0x7f).toNat = none) :
    readSubpackets readE (UInt8.ofNat (body.length + 1) :: t :: body) = .throw := by
  have e : UInt8.ofNat (body.length + 1) :: t :: body = subLengthOctets (body.length + 1) ++ (t :: body) := by
    rw [subLengthOctets, if_pos (by omega)]; rfl
  have h0 : (subLengthOctets (body.length + 1) ++ (t :: body)).drop 0 = subLengthOctets (body.length + 1) ++ (t :: body) := rfl
  have h1 := readSubLength_at h0 (by omega)
  rw [e, readSubpackets, readSubpacketsLoop, if_pos (by simp), h1, Out.ok_bind]
  simp only
  rw [charAt_drop (drop_add_of h0), Out.ok_bind, ht]

example : SubBody.default (E := Empty) ((33 : UInt8) &&& 0x7f).toNat = none := rfl

/-- Disagreement with "parsing never reads outside the input": a truncated two-octet length is read past the end. -/
theorem C08_truncated_ub (readE : Bytes → Out E) : readSubpackets readE [200] = .ub := by
  rfl

end OpenPGP
