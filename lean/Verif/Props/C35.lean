import Verif.Model.Cleartext
import Verif.Props.C15
import Verif.Props.C33
import Verif.Props.C34

/-!
# C35: a cleartext signed message survives write and read
-/
namespace OpenPGP
open Rfc
variable {α : Type}

/-- The lines of a cleartext signed message (RFC 4880 7): header, armor headers, a blank line, the dash-escaped text, the armored signature. -/
def Rfc.cleartextLines (headers : List (Bytes × Bytes)) (text : List Bytes) (sig : List Bytes) : List Bytes :=
  [ascii "-----BEGIN PGP SIGNED MESSAGE-----"] ++ headers.map (fun h => h.1 ++ ascii ": " ++ h.2) ++ [[]] ++
    text.map (fun l => if l.head? = some 45 then ascii "- " ++ l else l) ++ sig

theorem escapeLine_eq (l : Bytes) : escapeLine l = if l.head? = some 45 then ascii "- " ++ l else l := by
  rw [escapeLine]; split <;> rfl

theorem rtrim_append_keep {a b : Bytes} (h : rtrim b ≠ []) : rtrim (a ++ b) = a ++ rtrim b := by
  have hne : (b.reverse.dropWhile isWs) ≠ [] := by
    intro e; apply h; rw [rtrim_eq, e]; rfl
  rw [rtrim_eq, rtrim_eq, List.reverse_append, List.dropWhile_append]
  rw [if_neg (by simpa using hne)]
  simp

theorem rtrim_prefix (l : Bytes) : ∃ w, l = rtrim l ++ w := by
  refine ⟨(l.reverse.takeWhile isWs).reverse, ?_⟩
  rw [rtrim_eq, ← List.reverse_append, List.takeWhile_append_dropWhile, List.reverse_reverse]

theorem rtrim_head_dash (l : Bytes) : (rtrim l).head? = some 45 ↔ l.head? = some 45 := by
  cases l with
  | nil => rfl
  | cons c l =>
    by_cases hc : c = 45
    · subst hc
      have : rtrim (45 :: l) ≠ [] := by
        rw [rtrim_eq]
        intro e
        have e := List.reverse_eq_nil_iff.mp e
        have := List.dropWhile_eq_nil_iff.mp e 45 (by simp)
        exact absurd this (by decide)
      obtain ⟨w, hw⟩ := rtrim_prefix (45 :: l)
      cases hr : rtrim (45 :: l) with
      | nil => exact absurd hr this
      | cons x r =>
        rw [hr] at hw
        simp only [List.cons_append, List.cons.injEq] at hw
        simp [← hw.1]
    · obtain ⟨w, hw⟩ := rtrim_prefix (c :: l)
      cases hr : rtrim (c :: l) with
      | nil => simp [hc]
      | cons x r =>
        rw [hr] at hw
        simp only [List.cons_append, List.cons.injEq] at hw
        simp [← hw.1]

theorem rtrim_escape (l : Bytes) : rtrim (escapeLine l) = escapeLine (rtrim l) := by
  rw [escapeLine, escapeLine]
  by_cases h : l.head? = some 45
  · rw [if_pos h, if_pos ((rtrim_head_dash l).mpr h), rtrim_append_keep]
    intro e
    have := (rtrim_head_dash l).mpr h
    rw [e] at this
    simp at this
  · rw [if_neg h, if_neg (mt (rtrim_head_dash l).mp h)]
    rfl

theorem rtrim_noLf {l : Bytes} (h : (10 : UInt8) ∉ l) : (10 : UInt8) ∉ rtrim l := by
  obtain ⟨w, hw⟩ := rtrim_prefix l
  intro hm
  exact h (by rw [hw]; exact List.mem_append_left _ hm)

theorem findSigned_at : ∀ {ls junk rest : List Bytes} {b : Bytes}, ls.map rtrim = junk ++ b :: rest →
    (∀ l ∈ junk, ¬ beginSigned <+: l) → beginSigned <+: b → ∃ tail, findSigned ls = some (b, tail) ∧ tail.map rtrim = rest
  | [], junk, rest, b, h, _, _ => by simp at h
  | l :: ls, [], rest, b, h, _, hb => by
    simp only [List.map_cons, List.nil_append, List.cons.injEq] at h
    refine ⟨ls, ?_, h.2⟩
    rw [findSigned, if_pos, h.1]
    rw [h.1]
    exact (List.prefix_iff_eq_take.mp hb).symm
  | l :: ls, j :: junk, rest, b, h, hj, hb => by
    simp only [List.map_cons, List.cons_append, List.cons.injEq] at h
    obtain ⟨tail, h1, h2⟩ := findSigned_at h.2 (fun l hl => hj l (by simp [hl])) hb
    refine ⟨tail, ?_, h2⟩
    rw [findSigned, if_neg, h1]
    rw [h.1]
    intro he
    exact hj j (by simp) (List.prefix_iff_eq_take.mpr he.symm)

theorem hashHeaders_at (stop : Bytes → Bytes) : ∀ {ls : List Bytes} {headers : List (Bytes × Bytes)} {rest : List Bytes} (line : Bytes),
    ls.map rtrim = headers.map (fun h => h.1 ++ ascii ": " ++ h.2) ++ [] :: rest → (∀ h ∈ headers, goodHeader h) →
    ∃ tail, hashHeaders stop line ls = (headers, [], tail) ∧ tail.map rtrim = rest
  | [], headers, rest, line, h, _ => by cases headers <;> simp at h
  | l :: ls, [], rest, line, h, _ => by
    simp only [List.map_cons, List.map_nil, List.nil_append, List.cons.injEq] at h
    refine ⟨ls, ?_, h.2⟩
    rw [hashHeaders, if_pos h.1]
  | l :: ls, k :: headers, rest, line, h, hg => by
    simp only [List.map_cons, List.cons_append, List.cons.injEq] at h
    obtain ⟨tail, h1, h2⟩ := hashHeaders_at stop (rtrim l) h.2 (fun x hx => hg x (by simp [hx]))
    refine ⟨tail, ?_, h2⟩
    have hn : rtrim l ≠ [] := by
      rw [h.1]
      have := (hg k (by simp)).nonempty
      simp [this]
    rw [hashHeaders, if_neg hn, h.1, armorKey_header (hg k (by simp)), ← h.1, h1]

theorem linesUntil_at (stop : Bytes → Bytes) {e : Bytes} : ∀ {ls text rest : List Bytes} {b : Bytes} (acc line : Bytes),
    ls.map rtrim = text ++ b :: rest → (∀ l ∈ text, ¬ e <+: l) → e <+: b →
    ∃ tail, linesUntil stop e acc line ls = (acc ++ text.flatMap (fun l => l ++ [10]), b, tail) ∧ tail.map rtrim = rest
  | [], text, rest, b, acc, line, h, _, _ => by simp at h
  | l :: ls, [], rest, b, acc, line, h, _, hb => by
    simp only [List.map_cons, List.nil_append, List.cons.injEq] at h
    refine ⟨ls, ?_, h.2⟩
    rw [linesUntil, if_pos, h.1]
    · simp
    · rw [h.1]; exact (List.prefix_iff_eq_take.mp hb).symm
  | l :: ls, x :: text, rest, b, acc, line, h, hx, hb => by
    simp only [List.map_cons, List.cons_append, List.cons.injEq] at h
    obtain ⟨tail, h1, h2⟩ := linesUntil_at stop (acc ++ rtrim l ++ [10]) (rtrim l) h.2 (fun l hl => hx l (by simp [hl])) hb
    refine ⟨tail, ?_, h2⟩
    rw [linesUntil, if_neg, h1, h.1]
    · simp
    · rw [h.1]
      intro he
      exact hx x (by simp) (List.prefix_iff_eq_take.mpr he.symm)

/-- An escaped line is no armor line. -/
theorem escape_no_armor (l : Bytes) : ¬ ascii "--" <+: escapeLine l := by
  rw [escapeLine]
  rintro ⟨x, hx⟩
  rw [show ascii "--" = [45, 45] from rfl] at hx
  split at hx
  · simp at hx
  · rename_i h
    rw [List.nil_append] at hx
    rw [← hx] at h
    simp at h

/-- Reading: white space at line ends is ignored (so line ends may be CR LF), text in front of the cleartext header and behind the
signature too. The headers are those of the input and the message consists of the lines, without one blank line at the end. The signature is
that of the armored part. -/
theorem C35_read (parse : Nat → Fmt → Span → Out α) (o : Cleartext α) (data : Bytes) (junk after text body : List Bytes)
    (headers keys : List (Bytes × Bytes)) (octets chk c : Bytes)
    (hd : (getlines data).map rtrim = junk ++ cleartextLines headers text (armorLines 6 keys body chk) ++ after)
    (hj : ∀ l ∈ junk, ¬ ascii "-----BEGIN PGP SIGNED MESSAGE-----" <+: l) (hh : ∀ h ∈ headers, goodHeader h)
    (hk : ∀ h ∈ keys, goodHeader h) (hke : ∀ h ∈ keys, ¬ ascii "-----" <+: h.1)
    (hb : body.flatten = ascii2radix64 octets) (he : ∀ l ∈ body, l.head? ≠ some 61) (ho : octets ≠ [])
    (hc : radix642ascii chk = .ok c) :
    cleartextRead parse o data = (readRaw parse octets >>= fun ps =>
      .ok ⟨o.headers ++ headers, joinLines (dropBlank text), ⟨true, 6, o.sig.keys ++ keys, ps⟩⟩) := by
  have e1 : beginSigned = ascii "-----BEGIN PGP SIGNED MESSAGE-----" := by decide
  have e2 : beginSignature = ascii "-----BEGIN PGP " ++ ascii (armorLabel 6) ++ ascii "-----" := by decide
  have e3 : endSignature = ascii "-----END PGP " ++ ascii (armorLabel 6) ++ ascii "-----" := by decide
  have e4 : ∀ l : Bytes, (if l.head? = some 45 then ascii "- " ++ l else l) = escapeLine l := fun l => (escapeLine_eq l).symm
  -- the lines of the signature are trimmed and have no line feeds
  have htrim : ∀ l ∈ junk ++ cleartextLines headers text (armorLines 6 keys body chk) ++ after, rtrim l = l ∧ (10 : UInt8) ∉ l := by
    intro l hl
    rw [← hd] at hl
    obtain ⟨x, hx, rfl⟩ := List.mem_map.mp hl
    exact ⟨rtrim_idem x, rtrim_noLf (getlines_noLf data x hx)⟩
  have hsig : ∀ l ∈ armorLines 6 keys body chk, rtrim l = l ∧ (10 : UInt8) ∉ l := by
    intro l hl
    refine htrim l (List.mem_append_left _ (List.mem_append_right _ ?_))
    exact List.mem_append_right _ hl
  have htext : NoLf text := by
    intro l hl
    have := (htrim (escapeLine l) (List.mem_append_left _ (List.mem_append_right _ (List.mem_append_left _
      (List.mem_append_right _ (List.mem_map.mpr ⟨l, hl, e4 l⟩)))))).2
    intro h10
    exact this (by rw [escapeLine]; exact List.mem_append_right _ h10)
  -- the search
  simp only [cleartextLines, e4, List.append_assoc, List.cons_append, List.nil_append] at hd
  obtain ⟨r1, f1, m1⟩ := findSigned_at hd (by rw [e1]; exact hj) (by rw [e1]; exact List.prefix_refl _)
  obtain ⟨r2, f2, m2⟩ := hashHeaders_at (atEnd data) (ls := r1) (headers := headers) (rest := text.map escapeLine ++
    (armorLines 6 keys body chk ++ after)) (ascii "-----BEGIN PGP SIGNED MESSAGE-----") (by simp only [List.append_assoc]; exact m1) hh
  set mid : List Bytes := keys.map (fun h => h.1 ++ ascii ": " ++ h.2) ++ [[]] ++ body ++ [ascii "=" ++ chk] with hmid
  have hal : armorLines 6 keys body chk = beginSignature :: (mid ++ [endSignature]) := by
    rw [armorLines, hmid, e2, e3]
    simp
  rw [hal] at hsig
  have harm : ∀ e : Bytes, ascii "--" <+: e → ∀ l, ¬ e <+: escapeLine l := fun e h l h2 => escape_no_armor l (h.trans h2)
  obtain ⟨r3, f3, m3⟩ := linesUntil_at (atEnd data) (e := beginSignature) (ls := r2) (text := text.map escapeLine)
    (rest := mid ++ endSignature :: after) (b := beginSignature) [] [] (by rw [m2, hal]; simp)
    (by
      intro l hl
      obtain ⟨x, -, rfl⟩ := List.mem_map.mp hl
      exact harm _ ⟨_, by rw [e2]; rfl⟩ x)
    (List.prefix_refl _)
  have hmidno : ∀ l ∈ mid, ¬ endSignature <+: l := by
    intro l hl hp
    have h5 : ascii "-----" <+: l := List.IsPrefix.trans ⟨ascii "END PGP SIGNATURE-----", by decide⟩ hp
    simp only [hmid, List.mem_append, List.mem_singleton, List.mem_map] at hl
    rcases hl with ((⟨k, hkm, rfl⟩ | rfl) | hl) | rfl
    · by_cases hlen : 5 ≤ k.1.length
      · rw [List.append_assoc] at h5
        exact hke k hkm (List.prefix_of_prefix_length_le h5 (List.prefix_append _ _) hlen)
      · -- the colon is among the first five octets
        have := List.prefix_iff_eq_take.mp h5
        have h58 : (58 : UInt8) ∈ (k.1 ++ ascii ": " ++ k.2).take 5 := by
          rw [show ascii ": " = [58, 32] from rfl, List.append_assoc, List.take_append]
          refine List.mem_append_right _ ?_
          obtain ⟨m, hm⟩ : ∃ m, 5 - k.1.length = m + 1 := ⟨4 - k.1.length, by omega⟩
          rw [hm]
          simp
        rw [show (ascii "-----").length = 5 from rfl] at this
        rw [← this] at h58
        exact absurd h58 (by decide)
    · obtain ⟨x, hx⟩ := h5
      rw [show ascii "-----" = 45 :: ascii "----" from by decide] at hx
      simp at hx
    · obtain ⟨x, rfl⟩ := h5
      have : (45 : UInt8) ∈ ascii2radix64 octets := by
        rw [← hb]
        exact List.mem_flatten.mpr ⟨_, hl, List.mem_append_left _ (by decide)⟩
      exact (radixChar_ok ((ascii2radix64_text octets).chars _ this)).2.1 rfl
    · obtain ⟨x, hx⟩ := h5
      rw [show ascii "-----" = 45 :: ascii "----" from by decide, show ascii "=" = [61] from by decide] at hx
      simp at hx
  obtain ⟨r4, f4, -⟩ := linesUntil_at (atEnd data) (e := endSignature) (ls := r3) (text := mid) (rest := after) (b := endSignature)
    (beginSignature ++ [10]) beginSignature m3 hmidno (List.prefix_refl _)
  -- the text of the signature
  have hlines : getlines (beginSignature ++ [10] ++ mid.flatMap (fun l => l ++ [10]) ++ endSignature) = armorLines 6 keys body chk := by
    have hn : NoLf (beginSignature :: mid) := fun l hl => (hsig l (by
      rcases List.mem_cons.mp hl with rfl | hl
      · simp
      · simp [hl])).2
    have := getlines_unlines hn endSignature
    rw [List.flatMap_cons] at this
    rw [this, getlines_last (by decide) (by decide), hal]
    rfl
  have hread := C15_read parse o.sig (beginSignature ++ [10] ++ mid.flatMap (fun l => l ++ [10]) ++ endSignature) [] [] body 6 keys octets chk c
    (by omega) (by omega) (by
      rw [hlines, List.nil_append, List.append_nil]
      refine (List.map_congr_left (g := id) fun l hl => ?_).trans (List.map_id _)
      rw [hal] at hl
      exact (hsig l hl).1) (by simp) hk hb he ho hc
  have hmsg : reverseDashEscape (chopLast ((text.map escapeLine).flatMap fun l => l ++ [10])) = joinLines (dropBlank text) := by
    have hjoin : chopLast ((text.map escapeLine).flatMap fun l => l ++ [10]) = joinLines (text.map escapeLine) := by
      have := chopLast_lines id (text.map escapeLine)
      rwa [List.map_id] at this
    rw [hjoin, reverseDashEscape_eq, getlines_joinLines _ (noLf_map (fun l => escapeLine_noLf) htext),
      dropBlank_map escapeLine_nil, List.map_map]
    have : unescapeLine ∘ escapeLine = id := funext unescape_escape
    rw [this, List.map_id]
  unfold cleartextRead
  simp only [f1, f2, f3, f4, hread, List.nil_append, hmsg]
  cases readRaw parse octets <;> rfl

theorem getlines_lf (s : Bytes) : getlines (s ++ [10]) = getlines s ∨ getlines (s ++ [10]) = getlines s ++ [[]] := by
  induction s with
  | nil => right; rfl
  | cons c s ih =>
    by_cases hc : c = 10
    · subst hc
      simp only [List.cons_append, getlines, if_true]
      rcases ih with ih | ih
      · left; rw [ih]
      · right; rw [ih]
    · simp only [List.cons_append, getlines, hc, if_false]
      rcases ih with ih | ih
      · left; rw [ih]
      · cases h : getlines s with
        | nil =>
          left
          rw [h] at ih
          rw [ih]
          simp
        | cons l ls =>
          right
          rw [h] at ih
          rw [ih]
          simp

/-- As written, and with a line feed behind it. -/
theorem cleartext_after (parse : Nat → Fmt → Span → Out α) (o : Cleartext α) (octets : Bytes) (hh : ∀ h ∈ o.headers, goodHeader h)
    (ht : o.sig.type = 6) (hk : ∀ h ∈ o.sig.keys, goodHeader h) (hke : ∀ h ∈ o.sig.keys, ¬ ascii "-----" <+: h.1) (ho : octets ≠ [])
    (hr : readRaw parse octets = .ok o.sig.packets) :
    ∃ out, cleartextWrite o octets = .ok out ∧ ∀ w, w = [] ∨ w = [10] → cleartextRead parse .fresh (out ++ w) =
      .ok ⟨o.headers, joinLines (dropBlank ((getlines o.message).map rtrim)), { o.sig with armored := true }⟩ := by
  obtain ⟨s, body, hw, hl, htr, hb, he⟩ := C15_written o.sig .yes octets (by omega) (by omega) hk (Or.inl rfl)
  rw [ht] at hl
  -- the text in lines
  set text : List Bytes := if o.message = [] then [[]] else getlines o.message with htext
  have htn : NoLf text := by
    rw [htext]
    split
    · intro l hl
      obtain rfl := List.mem_singleton.mp hl
      simp
    · exact getlines_noLf _
  have hesc : dashEscape o.message ++ [10] = (text.map escapeLine).flatMap fun l => l ++ [10] := by
    rw [dashEscape_eq, htext]
    split
    · rename_i h; rw [h]; rfl
    · rename_i h
      refine joinLines_eq _ ?_
      simpa [getlines_nil_iff] using h
  have hsame : joinLines (dropBlank (text.map rtrim)) = joinLines (dropBlank ((getlines o.message).map rtrim)) := by
    rw [htext]
    split
    · rename_i h; rw [h]; rfl
    · rfl
  set L : List Bytes := [ascii "-----BEGIN PGP SIGNED MESSAGE-----"] ++ o.headers.map (fun h => h.1 ++ ascii ": " ++ h.2) ++ [[]] ++
    text.map escapeLine with hL
  have hLno : NoLf L := by
    intro l hl
    simp only [hL, List.mem_append, List.mem_singleton, List.mem_map] at hl
    rcases hl with ((rfl | ⟨k, hk, rfl⟩) | rfl) | ⟨x, hx, rfl⟩
    · decide
    · simp only [List.mem_append, not_or]
      exact ⟨⟨(hh k hk).key, by decide⟩, (hh k hk).value⟩
    · simp
    · exact escapeLine_noLf (htn x hx)
  have hout : cleartextWrite o octets = .ok (L.flatMap (fun l => l ++ [10]) ++ s) := by
    have e1 : beginSigned = ascii "-----BEGIN PGP SIGNED MESSAGE-----" := by decide
    rw [cleartextWrite, hw, Out.ok_bind, hL]
    simp only [List.flatMap_append, ← hesc, List.flatMap_cons, List.flatMap_nil, List.flatMap_map, List.append_nil, List.append_assoc, e1,
      List.nil_append]
    rfl
  refine ⟨_, hout, fun w hw' => ?_⟩
  have hlines : (getlines (L.flatMap (fun l => l ++ [10]) ++ s)).map rtrim = [] ++ cleartextLines o.headers (text.map rtrim)
      (armorLines 6 o.sig.keys body (ascii2radix64 (be 3 (crc24 octets).toNat))) ++ [] := by
    rw [getlines_unlines hLno, List.map_append, htr, hl, List.nil_append, List.append_nil, cleartextLines, hL]
    congr 1
    simp only [List.map_append, List.map_map, List.map_cons, List.map_nil]
    congr 1
    · congr 2
      apply List.map_congr_left
      intro k hk
      refine rtrim_append (hh k hk).nonempty fun c hcl => ?_
      have := mt (isWs_iff c).mp ((hh k hk).back c hcl)
      simpa using this
    · apply List.map_congr_left
      intro l _
      simp only [Function.comp, ← escapeLine_eq]
      exact rtrim_escape l
  obtain ⟨after, hlines⟩ : ∃ after, (getlines (L.flatMap (fun l => l ++ [10]) ++ s ++ w)).map rtrim = [] ++ cleartextLines o.headers (text.map rtrim)
      (armorLines 6 o.sig.keys body (ascii2radix64 (be 3 (crc24 octets).toNat))) ++ after := by
    rcases hw' with rfl | rfl
    · exact ⟨[], by rw [List.append_nil]; exact hlines⟩
    · rcases getlines_lf (L.flatMap (fun l => l ++ [10]) ++ s) with h | h
      · exact ⟨[], by rw [h]; exact hlines⟩
      · refine ⟨[[]], ?_⟩
        rw [h, List.map_append, hlines, List.append_nil]
        rfl
  have := C35_read parse .fresh _ [] after (text.map rtrim) body o.headers o.sig.keys octets _ (be 3 (crc24 octets).toNat) hlines
    (by simp) hh hk hke hb (fun l hl => (he l hl).1) ho
    (C02_radix64_roundtrip_default _ (by intro h; have := congrArg List.length h; simp at this))
  rw [this, hr, Out.ok_bind, hsame]
  simp only [Cleartext.fresh, PgpObj.fresh, List.nil_append]
  obtain ⟨h, m, sg⟩ := o
  obtain ⟨a, t, k, p⟩ := sg
  simp only at ht
  subst ht
  rfl

/-- Writing and reading back: the same headers, the same signature, and the lines of the text without white space at their ends and
without one blank line at the end, for every text. -/
theorem C35_roundtrip (parse : Nat → Fmt → Span → Out α) (o : Cleartext α) (octets : Bytes) (hh : ∀ h ∈ o.headers, goodHeader h)
    (ht : o.sig.type = 6) (hk : ∀ h ∈ o.sig.keys, goodHeader h) (hke : ∀ h ∈ o.sig.keys, ¬ ascii "-----" <+: h.1) (ho : octets ≠ [])
    (hr : readRaw parse octets = .ok o.sig.packets) :
    ∃ out, cleartextWrite o octets = .ok out ∧ cleartextRead parse .fresh out =
      .ok ⟨o.headers, joinLines (dropBlank ((getlines o.message).map rtrim)), { o.sig with armored := true }⟩ := by
  obtain ⟨out, h1, h2⟩ := cleartext_after parse o octets hh ht hk hke ho hr
  exact ⟨out, h1, by simpa using h2 [] (Or.inl rfl)⟩

/-- A line feed behind the message makes no difference. -/
theorem C35_roundtrip_lf (parse : Nat → Fmt → Span → Out α) (o : Cleartext α) (octets : Bytes) (hh : ∀ h ∈ o.headers, goodHeader h)
    (ht : o.sig.type = 6) (hk : ∀ h ∈ o.sig.keys, goodHeader h) (hke : ∀ h ∈ o.sig.keys, ¬ ascii "-----" <+: h.1) (ho : octets ≠ [])
    (hr : readRaw parse octets = .ok o.sig.packets) :
    ∃ out, cleartextWrite o octets = .ok out ∧ cleartextRead parse .fresh (out ++ [10]) =
      .ok ⟨o.headers, joinLines (dropBlank ((getlines o.message).map rtrim)), { o.sig with armored := true }⟩ := by
  obtain ⟨out, h1, h2⟩ := cleartext_after parse o octets hh ht hk hke ho hr
  exact ⟨out, h1, h2 [10] (Or.inr rfl)⟩

theorem dropBlank_last {ls : List Bytes} (h : ls.getLast? ≠ some []) : dropBlank ls = ls := by
  rw [dropBlank_eq, if_neg h]

/-- The text read back has the lines of the text that was written, up to white space at their ends, if the last line is not blank. -/
theorem C35_text (m : Bytes) (h : ∀ l, (getlines m).getLast? = some l → rtrim l ≠ []) :
    getlines (joinLines (dropBlank ((getlines m).map rtrim))) = (getlines m).map rtrim := by
  have hl : ((getlines m).map rtrim).getLast? ≠ some [] := by
    rw [List.getLast?_map]
    intro he
    obtain ⟨l, h1, h2⟩ := Option.map_eq_some_iff.mp he
    exact h l h1 h2
  rw [dropBlank_last hl, getlines_joinLines _ (noLf_map (fun l => rtrim_noLf) (getlines_noLf m)), dropBlank_last hl]

theorem strip_rtrim (l : Bytes) : stripLine (rtrim l) = rtrim l := by
  rw [stripLine]
  have h : ∀ c, (rtrim l).getLast? = some c → isWs c = false := by
    intro c hc
    rw [rtrim_eq, List.getLast?_reverse] at hc
    have := List.head?_dropWhile_not isWs l.reverse
    rw [hc] at this
    simpa using this
  rcases List.eq_nil_or_concat (rtrim l) with e | ⟨u, c, e⟩
  · rw [e]; rfl
  · rw [e] at h ⊢
    have := h c (by simp)
    have h2 : (c == 0x20 || c == 0x09) = false := by
      simp only [isWs, Bool.or_eq_false_iff] at this ⊢
      exact ⟨this.1.1.1.1.1, this.1.1.1.1.2⟩
    simp [h2]

theorem chomp_rtrim (l : Bytes) : chompCr (rtrim l) = rtrim l := by
  rw [chompCr, if_neg]
  intro hc
  rw [rtrim_eq, List.getLast?_reverse] at hc
  have := List.head?_dropWhile_not isWs l.reverse
  rw [hc] at this
  simp [isWs] at this

/-- What is hashed for the text read back is what is hashed for the text that was signed, if its last line is not blank and no line ends
with white space other than spaces and tabs, or a carriage return. -/
theorem C35_digest (m : Bytes) (h : ∀ l, (getlines m).getLast? = some l → rtrim l ≠ [])
    (hw : ∀ l ∈ getlines m, rtrim l = stripLine l ∨ l = rtrim l ++ [13]) :
    canonicalBody (dataToText (joinLines (dropBlank ((getlines m).map rtrim)))) = canonicalBody (dataToText m) := by
  rw [C33_same_iff, dataToText_eq, dataToText_eq, C35_text m h, List.map_map]
  have e : stripLine ∘ rtrim = rtrim := funext strip_rtrim
  rw [e]
  have hX : ((getlines m).map rtrim).getLast? ≠ some [] := by
    rw [List.getLast?_map]
    intro he
    obtain ⟨l, h1, h2⟩ := Option.map_eq_some_iff.mp he
    exact h l h1 h2
  have hch : ∀ l ∈ getlines m, chompCr (stripLine l) = rtrim l := by
    intro l hl
    rcases hw l hl with h1 | h1
    · rw [← h1, chomp_rtrim]
    · have h2 : stripLine l = l := by
        rw [h1, stripLine]
        simp
      rw [h2]
      conv_lhs => rw [h1]
      simp [chompCr]
  have hS : ((getlines m).map stripLine).getLast? ≠ some [] := by
    rw [List.getLast?_map]
    intro he
    obtain ⟨l, h1, h2⟩ := Option.map_eq_some_iff.mp he
    have := hch l (List.mem_of_getLast? h1)
    rw [h2] at this
    exact h l h1 this.symm
  have nX := noLf_map (fun l => rtrim_noLf) (getlines_noLf m)
  have nS : NoLf ((getlines m).map stripLine) := noLf_map (fun l hl => by
    intro h10
    rw [stripLine, List.mem_reverse] at h10
    exact hl (List.mem_reverse.mp ((List.dropWhile_sublist _).subset h10))) (getlines_noLf m)
  have gX := getlines_joinLines _ nX
  have gS := getlines_joinLines _ nS
  rw [dropBlank_last hX] at gX
  rw [dropBlank_last hS] at gS
  by_cases hm : m = []
  · subst hm; rfl
  · have hne : getlines m ≠ [] := by simpa [getlines_nil_iff] using hm
    have j1 : joinLines ((getlines m).map rtrim) ≠ [] := by
      intro h0; rw [h0] at gX; exact hne (by simpa [getlines] using gX.symm)
    have j2 : joinLines ((getlines m).map stripLine) ≠ [] := by
      intro h0; rw [h0] at gS; exact hne (by simpa [getlines] using gS.symm)
    rw [textLines, textLines, if_neg j1, if_neg j2, gX, gS, List.map_map, List.map_map]
    apply List.map_congr_left
    intro l hl
    simp only [Function.comp]
    rw [chomp_rtrim, hch l hl]

/-- A text that ends with two blank lines is not hashed alike after it was written and read. -/
theorem C35_blank_lines_fails :
    let m := ascii "a\n\n\n"
    canonicalBody (dataToText (joinLines (dropBlank ((getlines m).map rtrim)))) ≠ canonicalBody (dataToText m) := by decide

/-- The same for a text with CR LF line ends and one blank line at its end, -/
theorem C35_crlf_blank_fails :
    let m := ascii "a\r\n\r\n"
    canonicalBody (dataToText (joinLines (dropBlank ((getlines m).map rtrim)))) ≠ canonicalBody (dataToText m) := by decide

/-- and for a text with a blank in front of CR LF. -/
theorem C35_crlf_space_fails :
    let m := ascii "a \r\nb"
    canonicalBody (dataToText (joinLines (dropBlank ((getlines m).map rtrim)))) ≠ canonicalBody (dataToText m) := by decide

/-- Without a cleartext header nothing is read. -/
theorem C35_header_required (parse : Nat → Fmt → Span → Out α) (o : Cleartext α) (data : Bytes)
    (h : ∀ l ∈ getlines data, ¬ ascii "-----BEGIN PGP SIGNED MESSAGE-----" <+: rtrim l) : cleartextRead parse o data = .throw := by
  have e1 : beginSigned = ascii "-----BEGIN PGP SIGNED MESSAGE-----" := by decide
  have : ∀ ls : List Bytes, (∀ l ∈ ls, ¬ beginSigned <+: rtrim l) → findSigned ls = none := by
    intro ls
    induction ls with
    | nil => intro _; rfl
    | cons l ls ih =>
      intro h
      rw [findSigned, if_neg, ih fun l hl => h l (by simp [hl])]
      intro he
      exact h l (by simp) (List.prefix_iff_eq_take.mpr he.symm)
  rw [cleartextRead, this _ (by rw [e1]; exact h)]

/-! ## Examples -/

example : ∀ l ∈ getlines (ascii "- a  \n\n--b\r\nc\t"), rtrim l = stripLine l ∨ l = rtrim l ++ [13] := by decide

/-- A text with dashes, blanks and CR LF. -/
example : joinLines (dropBlank ((getlines (ascii "- a  \n\n--b\r\nc\t")).map rtrim)) = ascii "- a\n\n--b\nc" ∧
    dashEscape (ascii "- a  \n\n--b\r\nc\t") = ascii "- - a  \n\n- --b\r\nc\t" := by decide

/-- An object as C35_roundtrip wants it: a signature packet. -/
example : ∃ octets, writeRaw (Pkt.write (rawAt 0)) [⟨.new, false, .sig c10Inner⟩] = .ok octets ∧ octets ≠ [] ∧
    readRaw (Pkt.parse (readSigAt 0)) octets = .ok [⟨.new, false, .sig c10Inner⟩] := by
  refine ⟨_, rfl, by decide +kernel, by decide +kernel⟩

end OpenPGP
