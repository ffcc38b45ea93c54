import Verif.Model.PacketSetters
import Verif.Props.C74
import Verif.Props.C05

/-!
# C74: headers of packets, cleartext signatures, revocation certificates
-/
namespace OpenPGP
open HeaderObj
variable {E : Type}

/-- **Headers.** A packet is written with the tag and in the format that were set last, whatever else was set before; a tag above 15 is written in the new format. Read again, at any
place, it has that tag, and its body is the one the packet had (for the sizes C05 allows). -/
theorem C74_header (calls : List Call) (o : HeaderObj) (body pre post : Bytes)
    (hp : lastSet (fun | .part p => some p | _ => none) o.part calls = false)
    (tag : UInt8) (ht : lastSet (fun | .tag t => some t | _ => none) o.tag calls = tag) (h64 : tag < 64)
    (fmt : Fmt) (hf : fmt = if tag < 16 then lastSet (fun | .format f => some f | _ => none) o.fmt calls else .new)
    (hn : match fmt with | .old => body.length < 65536 | .new => body.length < 2 ^ 32 ∧ ¬ (8128 ≤ body.length ∧ body.length ≤ 8383)) :
    ∃ enc ctb start, (runCalls HeaderObj.call o calls).write body = .ok enc ∧
      readPacketHeader (pre ++ enc ++ post) pre.length = .ok (ctb, fmt, tag.toNat, pre.length + 1) ∧
      readUnformatted fmt ctb (pre ++ enc ++ post) (pre.length + 1) = .ok (⟨pre ++ enc ++ post, start, body.length, false⟩, pre.length + enc.length) ∧
      (pre ++ enc ++ post).drop start = body ++ post ∧ start + body.length = pre.length + enc.length := by
  have h1 := lastSet_run HeaderObj.call HeaderObj.tag (fun | .tag v => some v | _ => none) (by intro c o; cases c <;> rfl) calls o
  have h2 := lastSet_run HeaderObj.call HeaderObj.fmt (fun | .format v => some v | _ => none) (by intro c o; cases c <;> rfl) calls o
  have h3 := lastSet_run HeaderObj.call HeaderObj.part (fun | .part v => some v | _ => none) (by intro c o; cases c <;> rfl) calls o
  rw [ht] at h1
  rw [hp] at h3
  rw [← h2] at hf
  rw [HeaderObj.write, h1, h3]
  generalize (runCalls HeaderObj.call o calls).fmt = f at hf
  have h64' : tag.toNat < 64 := h64
  by_cases h16 : tag < 16
  · rw [if_pos h16] at hf
    subst hf
    have h16' : tag.toNat < 16 := h16
    cases fmt with
    | new =>
      obtain ⟨enc, ctb, start, e1, e2⟩ := C05_new_header_partial tag.toNat body pre post h64' hn.1 hn.2
      exact ⟨enc, ctb, start, by rw [writePacket, if_pos (Or.inl rfl), e1], e2⟩
    | old =>
      obtain ⟨enc, ctb, start, e1, e2⟩ := C05_old_header_partial tag.toNat body pre post h16' hn
      exact ⟨enc, ctb, start, by rw [writePacket, if_neg (by simp; omega), e1], e2⟩
  · rw [if_neg h16] at hf
    subst hf
    have h16' : ¬ tag.toNat < 16 := h16
    obtain ⟨enc, ctb, start, e1, e2⟩ := C05_new_header_partial tag.toNat body pre post h64' hn.1 hn.2
    exact ⟨enc, ctb, start, by rw [writePacket, if_pos (Or.inr (by omega)), e1], e2⟩

/-- **Failure: tags that do not exist** are not refused; the packet is written as one with another tag. -/
theorem C74_header_fails (o : HeaderObj) (tag : UInt8) (ht : 64 ≤ tag) (body post : Bytes) :
    ∃ enc ctb, ((o.call (.part false)).call (.tag tag)).write body = .ok enc ∧ readPacketHeader (enc ++ post) 0 = .ok (ctb, .new, tag.toNat % 64, 1) ∧ tag.toNat % 64 ≠ tag.toNat := by
  have key : ∀ t : Fin 256, (UInt8.ofNat (0xc0 ||| t.val)) &&& 0x80 ≠ 0 ∧ (UInt8.ofNat (0xc0 ||| t.val)) &&& 0x40 ≠ 0 ∧
      ((UInt8.ofNat (0xc0 ||| t.val)) &&& 0x3f).toNat = t.val % 64 := by decide +kernel
  obtain ⟨k1, k2, k3⟩ := key ⟨tag.toNat, tag.toNat_lt⟩
  have h64 : 64 ≤ tag.toNat := ht
  refine ⟨writeNewDefinite tag.toNat body, UInt8.ofNat (0xc0 ||| tag.toNat), ?_, ?_, ?_⟩
  · simp only [HeaderObj.write, HeaderObj.call, writePacket, writeNewLength]
    have h15 : tag.toNat > 15 := by omega
    simp [h15]
  · have hd : (writeNewDefinite tag.toNat body ++ post).drop 0 = UInt8.ofNat (0xc0 ||| tag.toNat) :: (newLengthOctets body.length 0 ++ body ++ post) := by
      simp [writeNewDefinite]
    rw [readPacketHeader, charAt_drop hd, Out.ok_bind, if_neg k1, if_pos k2, k3]
  · have := tag.toNat_lt
    omega

/-- **Cleartext signatures**: headers and text are those set last; the signature is the one set last, marked as armored. -/
theorem C74_cleartext {α : Type} (calls : List (Cleartext.Call α)) (c : Cleartext α) :
    runCalls Cleartext.call c calls = ⟨lastSet (fun | .headers k => some k | _ => none) c.headers calls, lastSet (fun | .message m => some m | _ => none) c.message calls,
      lastSet (fun | .sig s => some { s with armored := true } | _ => none) c.sig calls⟩ := by
  have h1 := lastSet_run Cleartext.call Cleartext.headers (fun | .headers v => some v | _ => none) (by intro c o; cases c <;> rfl) calls c
  have h2 := lastSet_run Cleartext.call Cleartext.message (fun | .message v => some v | _ => none) (by intro c o; cases c <;> rfl) calls c
  have h3 := lastSet_run Cleartext.call Cleartext.sig (fun | .sig v => some { v with armored := true } | _ => none) (by intro c o; cases c <;> rfl) calls c
  rw [Cleartext.mk.injEq]
  exact ⟨h1, h2, h3⟩

/-- **Revocation certificates**: the kind is told of an object of the type of public keys whose one packet is a revocation, and of nothing else; it throws otherwise. -/
theorem C74_revocation_kind (rev : PgpObj (Pkt E)) (t : UInt8) :
    (getRevokeType rev = .ok t ↔ rev.type = 2 ∧ t ∈ [0x20, 0x28, 0x30] ∧ ∃ f p s, rev.packets = [⟨f, p, .sig s⟩] ∧ s.type = t) ∧
    (getRevokeType rev = .throw ∨ ∃ t, getRevokeType rev = .ok t) := by
  unfold getRevokeType revocationPacket
  by_cases h2 : rev.type = 2
  · rw [if_neg (by simpa using h2)]
    split
    · rename_i heq
      constructor
      · constructor
        · exact nofun
        · rintro ⟨-, hm, f, p, s, hp, rfl⟩
          rw [hp] at heq
          simp only at heq
          rw [if_pos (by simpa using hm)] at heq
          cases heq
      · exact Or.inl rfl
    · rename_i s heq
      split at heq
      · rename_i f p s' hp
        split at heq
        · rename_i hc
          obtain rfl := Option.some.inj heq
          constructor
          · constructor
            · intro h
              obtain rfl := Out.ok.inj h
              exact ⟨h2, by simpa using hc, f, p, s', hp, rfl⟩
            · rintro ⟨-, -, f', p', s2, hp', rfl⟩
              rw [hp] at hp'
              injection hp' with h3 h4
              injection h3 with _ _ h5
              injection h5 with h6
              rw [h6]
          · exact Or.inr ⟨_, rfl⟩
        · cases heq
      · cases heq
  · rw [if_pos h2]
    exact ⟨⟨nofun, fun h => absurd h.1 h2⟩, Or.inl rfl⟩

/-- A literal packet in the old format, then called a compressed one; a tag of 75 becomes the tag 11; setting a signature that was to be binary. -/
example : (runCalls HeaderObj.call ⟨11, .new, false⟩ [.format .old, .tag 8]).write [1, 2, 3] = .ok [0xa0, 3, 1, 2, 3] ∧
    (runCalls HeaderObj.call ⟨11, .new, false⟩ [.format .old, .tag 18]).write [1, 2, 3] = .ok [0xd2, 3, 1, 2, 3] ∧
    (runCalls HeaderObj.call ⟨11, .new, false⟩ [.tag 75]).write [1, 2, 3] = .ok [0xcb, 3, 1, 2, 3] := by decide +kernel

example : (runCalls Cleartext.call (.fresh : Cleartext Nat) [.sig ⟨false, 6, [], [7]⟩, .message [104], .message [105]]) = ⟨[], [105], ⟨true, 6, [], [7]⟩⟩ := by decide +kernel

end OpenPGP
