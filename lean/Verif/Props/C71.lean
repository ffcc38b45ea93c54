import Verif.Model.Edit
import Verif.Props.C13

/-!
# C71: writing out the contents of a message

`Tag11::out` returns the contents of a literal data packet, or writes them to the file the packet names. It touches no other file, and none if it throws.
The name, however, is the sender's: any file that can be opened can be overwritten by whoever makes the packet, the report names another file if the
name has a zero octet in it, contents marked as for the eyes only are stored, and a report cannot be told from contents.
-/
namespace OpenPGP

/-- Two states of the files that differ at most in what the file `path` holds. -/
def OnlyAt (path : Bytes) (d d' : Disk) : Prop := d'.opens = d.opens ∧ ∀ p, p ≠ path → d'.holds p = d.holds p

/-- The packet says what its contents are: octets, text or UTF-8 text (RFC 4880, 5.9). -/
def Tag11.known (t : Tag11) : Prop := t.format = 98 ∨ t.format = 116 ∨ t.format = 117

/-- Without a file name, or if the caller does not want a file, the contents are returned and no file is touched, whatever the format. -/
theorem C71_returns (t : Tag11) (w : Bool) (d : Disk) (h : t.filename = [] ∨ w = false) : t.out w d = (.ok t.literal, d) := by
  unfold Tag11.out
  rw [if_neg]
  rintro ⟨h1, h2⟩
  rcases h with h | h
  · exact h1 h
  · rw [h] at h2; simp at h2

/-- Otherwise the file is written exactly if the format is known and the file can be opened; the file then holds the contents, no other file is changed,
and the result is the sentence with the packet's file name. If not, an exception is thrown and no file is changed. -/
theorem C71_writes (t : Tag11) (d : Disk) (hf : t.filename ≠ []) :
    (t.known ∧ d.opens (cPath t.filename) = true →
      ∃ d', t.out true d = (.ok ("Data written to file '".toUTF8.toList ++ t.filename ++ "'.".toUTF8.toList), d') ∧
        d'.holds (cPath t.filename) = some t.literal ∧ OnlyAt (cPath t.filename) d d') ∧
    (¬ (t.known ∧ d.opens (cPath t.filename) = true) → t.out true d = (.throw, d)) := by
  have hs1 : "Data written to file '".toUTF8.toList = writtenTo := by decide +kernel
  have hs2 : "'.".toUTF8.toList = [39, 46] := by decide +kernel
  unfold Tag11.out Tag11.known
  rw [if_pos ⟨hf, rfl⟩]
  constructor
  · rintro ⟨hk, ho⟩
    refine ⟨d.store (cPath t.filename) t.literal, by rw [if_pos hk, if_pos ho, hs1, hs2], by simp [Disk.store], rfl, fun p hp => by simp [Disk.store, hp]⟩
  · intro hn
    split_ifs with h1 h2
    · exact absurd ⟨h1, h2⟩ hn
    · rfl
    · rfl

/-- In every case at most the named file changes, and none if the call throws. -/
theorem C71_others (t : Tag11) (w : Bool) (d : Disk) :
    OnlyAt (cPath t.filename) d (t.out w d).2 ∧ ((t.out w d).1 = .throw → (t.out w d).2 = d) ∧ (t.out w d).1 ≠ .ub ∧ (t.out w d).1 ≠ .diverge := by
  unfold Tag11.out
  split_ifs
  · exact ⟨⟨rfl, fun p hp => by simp [Disk.store, hp]⟩, by simp, by simp, by simp⟩
  all_goals exact ⟨⟨rfl, fun _ _ => rfl⟩, by simp, by simp, by simp⟩

theorem cPath_self {path : Bytes} (h0 : (0 : UInt8) ∉ path) : cPath path = path := by
  induction path with
  | nil => rfl
  | cons a l ih =>
    simp only [List.mem_cons, not_or] at h0
    unfold cPath at ih ⊢
    rw [List.takeWhile_cons_of_pos (by simpa using fun h : a = 0 => h0.1 h.symm), ih h0.2]

theorem cPath_zero {path : Bytes} (h0 : (0 : UInt8) ∉ path) (rest : Bytes) : cPath (path ++ 0 :: rest) = path := by
  induction path with
  | nil => rfl
  | cons a l ih =>
    simp only [List.mem_cons, not_or] at h0
    unfold cPath at ih ⊢
    rw [List.cons_append, List.takeWhile_cons_of_pos (by simpa using fun h : a = 0 => h0.1 h.symm), ih h0.2]

/-- The file is the sender's choice: for every file that can be opened, whatever its name (up to 255 octets), and for every new contents there are octets
that read as a literal data packet, and writing out that packet overwrites the file. -/
theorem C71_any_file_fails {E : Type} (readE : Bytes → Out E) (d : Disk) (path new : Bytes) (hp : path ≠ []) (h0 : (0 : UInt8) ∉ path)
    (hl : path.length < 256) (ho : d.opens path = true) :
    ∃ (body : Bytes) (t : Tag11), Body.parse readE 11 ⟨body, 0, body.length, false⟩ = .ok (.literal t) ∧
      ∃ msg d', t.out true d = (.ok msg, d') ∧ d'.holds path = some new := by
  have hc := cPath_self h0
  obtain ⟨raw, -, h⟩ := C13_simple (E := E) readE (fun _ => []) (.literal ⟨98, path, 0, new⟩) ⟨hl, by simp⟩
  refine ⟨raw, ⟨98, path, 0, new⟩, h raw 0 [] false (Nat.zero_le _) (by simp), ?_⟩
  obtain ⟨d', h1, h2, -⟩ := (C71_writes ⟨98, path, 0, new⟩ d hp).1 ⟨Or.inl rfl, by rw [hc]; exact ho⟩
  rw [hc] at h2
  exact ⟨_, d', h1, h2⟩

/-- The file reported need not be the file written: everything from a zero octet on is reported, but not part of the file's name. -/
theorem C71_report_fails (d : Disk) (path shown data : Bytes) (h0 : (0 : UInt8) ∉ path) (ho : d.opens path = true) :
    ∃ d', (Tag11.out ⟨98, path ++ 0 :: shown, 0, data⟩ true d) = (.ok ("Data written to file '".toUTF8.toList ++ (path ++ 0 :: shown) ++ "'.".toUTF8.toList), d') ∧
      d'.holds path = some data ∧ ∀ p, p ≠ path → d'.holds p = d.holds p := by
  have hc := cPath_zero h0 shown
  obtain ⟨d', h1, h2, h3⟩ := (C71_writes ⟨98, path ++ 0 :: shown, 0, data⟩ d (by simp)).1 ⟨Or.inl rfl, by rw [hc]; exact ho⟩
  rw [hc] at h2 h3
  exact ⟨d', h1, h2, h3.2⟩

/-- Contents for the eyes only (file name "_CONSOLE", RFC 4880, 5.9) are stored in a file of that name. -/
theorem C71_console_fails (d : Disk) (data : Bytes) (ho : d.opens "_CONSOLE".toUTF8.toList = true) :
    ∃ msg d', (Tag11.out ⟨116, "_CONSOLE".toUTF8.toList, 0, data⟩ true d) = (.ok msg, d') ∧ d'.holds "_CONSOLE".toUTF8.toList = some data := by
  have hc : cPath "_CONSOLE".toUTF8.toList = "_CONSOLE".toUTF8.toList := by decide +kernel
  obtain ⟨d', h1, h2, -⟩ := (C71_writes ⟨116, "_CONSOLE".toUTF8.toList, 0, data⟩ d (by show "_CONSOLE".toUTF8.toList ≠ []; decide +kernel)).1 ⟨Or.inr (Or.inl rfl), by rw [hc]; exact ho⟩
  rw [hc] at h2
  exact ⟨_, d', h1, h2⟩

/-- The result does not tell whether a file was written: contents that read like the report come back as they are, without a file. -/
theorem C71_ambiguous_fails (d : Disk) (t : Tag11) (hf : t.filename ≠ []) (ht : t.known) (ho : d.opens (cPath t.filename) = true) :
    ∃ msg d', t.out true d = (.ok msg, d') ∧ d'.holds (cPath t.filename) = some t.literal ∧ Tag11.out ⟨98, [], 0, msg⟩ true d = (.ok msg, d) := by
  obtain ⟨d', h1, h2, -⟩ := (C71_writes t d hf).1 ⟨ht, ho⟩
  exact ⟨_, d', h1, h2, C71_returns _ _ _ (Or.inl rfl)⟩

/-- A disk with one file that can be opened, and a packet written out to it. -/
example : ∃ (d : Disk) (t : Tag11), t.filename ≠ [] ∧ t.known ∧ d.opens (cPath t.filename) = true ∧ d.holds (cPath t.filename) = some [9] ∧
    ((t.out true d).2.holds (cPath t.filename)) = some [1, 2] ∧ (t.out false d).1 = .ok [1, 2] :=
  ⟨⟨fun p => p == [97], fun p => if p = [97] then some [9] else none⟩, ⟨98, [97], 0, [1, 2]⟩, by decide, Or.inl rfl, by decide, by decide, by decide, by decide⟩

end OpenPGP
