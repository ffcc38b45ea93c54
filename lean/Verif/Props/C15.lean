import Verif.Lemmas.Armor
import Verif.Props.C06Packets
import Mathlib.Tactic.IntervalCases

/-!
# C15: ASCII armor survives write and read
-/
namespace OpenPGP
open Rfc
variable {α : Type}

theorem armorLabel_eq (t : Nat) (h1 : 1 ≤ t) (h6 : t ≤ 6) : armorHeaders[t]? = some (ascii (armorLabel t)) := by
  interval_cases t <;> rfl

/-- Armored data is read: lines may have white space at their end (so line ends may be CR LF), any lines that are no armor header may come
before, the body may be broken into lines of any lengths as long as no line begins with '=', anything may follow. The type,
the headers and the octets are those of the text. -/
theorem C15_read (parse : Nat → Fmt → Span → Out α) (o : PgpObj α) (data : Bytes) (junk after body : List Bytes) (t : Nat)
    (headers : List (Bytes × Bytes)) (octets chk c : Bytes) (h1 : 1 ≤ t) (h6 : t ≤ 6)
    (hd : (getlines data).map rtrim = junk ++ armorLines t headers body chk ++ after)
    (hj : ∀ l ∈ junk, ¬ ascii "-----BEGIN PGP " <+: l) (hh : ∀ h ∈ headers, goodHeader h)
    (hb : body.flatten = ascii2radix64 octets) (he : ∀ l ∈ body, l.head? ≠ some 61) (ho : octets ≠ [])
    (hc : radix642ascii chk = .ok c) :
    pgpRead parse o data = (readRaw parse octets >>= fun ps => .ok ⟨true, t, o.keys ++ headers, ps⟩) := by
  have eb : armorBegin = ascii "-----BEGIN PGP " := by decide
  have ee : armorEnd = ascii "-----END PGP " := by decide
  simp only [armorLines, List.append_assoc, List.cons_append, List.nil_append] at hd
  obtain ⟨r1, f1, m1⟩ := findBegin_at hd (by rw [eb]; exact hj) (by rw [eb]; exact ⟨_, rfl⟩)
  obtain ⟨r2, f2, m2⟩ := armorKeys_at (ls := r1) (headers := headers) (rest := body ++ (ascii "=" ++ chk) ::
    (ascii "-----END PGP " ++ (ascii (armorLabel t) ++ ascii "-----")) :: after) (by simp only [List.append_assoc]; exact m1) hh
  have hbody : ∀ l ∈ body, l.head? ≠ some 61 ∧ ¬ armorEnd <+: l := by
    intro l hl
    refine ⟨he l hl, ?_⟩
    rintro ⟨x, rfl⟩
    have : (45 : UInt8) ∈ ascii2radix64 octets := by
      rw [← hb]
      exact List.mem_flatten.mpr ⟨_, hl, by rw [ee]; exact List.mem_append_left _ (by decide)⟩
    exact (radixChar_ok ((ascii2radix64_text octets).chars _ this)).2.1 rfl
  have f3 := armorBody_at (b := []) (c := []) (ls := r2) (body := body) (chk := chk) (rest := after)
    (e := ascii "-----END PGP " ++ (ascii (armorLabel t) ++ ascii "-----")) (by rw [m2]; rfl) hbody (by rw [ee]; exact ⟨_, rfl⟩)
  have ht : armorType (ascii "-----BEGIN PGP " ++ (ascii (armorLabel t) ++ ascii "-----")) 1 ((armorHeaders.drop 1).take 6) = t := by
    interval_cases t <;> decide +kernel
  unfold pgpRead
  simp only [f1, ht, f2, f3, armorDecode]
  rw [if_neg (by omega), if_pos (by simp)]
  simp only [List.drop_succ_cons, List.drop_zero, hc, Out.ok_bind, List.nil_append, hb, C02_radix64_roundtrip_default octets ho]
  rfl

/-- What `PGP::write` makes of the octets of the packets consists of the lines of RFC 4880 6.2. -/
theorem C15_written (o : PgpObj α) (mode : ArmorMode) (octets : Bytes) (h1 : 1 ≤ o.type) (h6 : o.type ≤ 6)
    (hh : ∀ h ∈ o.keys, goodHeader h) (hm : mode = .yes ∨ (mode = .default ∧ o.armored = true)) :
    ∃ (out : Bytes) (body : List Bytes), pgpWrite o mode octets = .ok out ∧
      getlines out = armorLines o.type o.keys body (ascii2radix64 (be 3 (crc24 octets).toNat)) ∧
      (getlines out).map rtrim = getlines out ∧
      body.flatten = ascii2radix64 octets ∧ ∀ l ∈ body, l.head? ≠ some 61 ∧ l.length ≤ 64 := by
  obtain ⟨body, b1, b2, b3⟩ := formatLoop_lines (ascii2radix64 octets).length (ascii2radix64 octets) (ascii2radix64_text octets) le_rfl
  have hc : unhexlify (makehex (crc24 octets).toNat 6 false) = .ok (be 3 (crc24 octets).toNat) := unhexlify_makehex _ 3 false
  set crc := be 3 (crc24 octets).toNat with hcrc
  set L := [ascii "-----BEGIN PGP " ++ ascii (armorLabel o.type) ++ ascii "-----"] ++ o.keys.map (fun h => h.1 ++ ascii ": " ++ h.2) ++
    [[]] ++ body ++ [ascii "=" ++ ascii2radix64 crc] with hL
  have hbodychar : ∀ l ∈ body, ∀ c ∈ l, Spec.alnum c ∨ c = 43 ∨ c = 47 ∨ c = 61 := by
    intro l hl c hcl
    refine (ascii2radix64_text octets).chars c ?_
    rw [← b2]
    exact List.mem_flatten.mpr ⟨l, hl, hcl⟩
  have hlab : ∀ c ∈ ascii (armorLabel o.type), c ≠ 10 := by
    have := h1
    have := h6
    generalize o.type = t at *
    interval_cases t <;> decide +kernel
  have hdash : ∀ x : Bytes, rtrim (x ++ ascii "-----") = x ++ ascii "-----" := fun x => rtrim_append (by decide) (by decide)
  have hLnolf : NoLf L := by
    intro l hl
    simp only [hL, List.mem_append, List.mem_singleton, List.mem_map] at hl
    rcases hl with (((rfl | ⟨k, hk, rfl⟩) | rfl) | hl) | rfl
    · simp only [List.mem_append, not_or]
      exact ⟨⟨by decide, fun h => hlab 10 h rfl⟩, by decide⟩
    · simp only [List.mem_append, not_or]
      exact ⟨⟨(hh k hk).key, by decide⟩, (hh k hk).value⟩
    · simp
    · exact fun h => (radixChar_ok (hbodychar l hl 10 h)).1 rfl
    · simp only [List.mem_append, not_or]
      exact ⟨by decide, fun h => (radixChar_ok ((ascii2radix64_text crc).chars 10 h)).1 rfl⟩
  have hLtrim : L.map rtrim = L := by
    refine (List.map_congr_left (g := id) fun l hl => ?_).trans (List.map_id _)
    simp only [hL, List.mem_append, List.mem_singleton, List.mem_map] at hl
    rcases hl with (((rfl | ⟨k, hk, rfl⟩) | rfl) | hl) | rfl
    · exact hdash _
    · refine rtrim_append (hh k hk).nonempty fun c hcl => ?_
      have := mt (isWs_iff c).mp ((hh k hk).back c hcl)
      simpa using this
    · rfl
    · exact rtrim_of_last fun c hcl => (radixChar_ok (hbodychar l hl c (List.mem_of_getLast? hcl))).2.2
    · refine rtrim_append ?_ fun c hcl => (radixChar_ok ((ascii2radix64_text crc).chars c (List.mem_of_getLast? hcl))).2.2
      intro hnil
      have := congrArg List.length hnil
      rw [C02_radix64_length, hcrc] at this
      simp at this
  set last := ascii "-----END PGP " ++ ascii (armorLabel o.type) ++ ascii "-----" with hlast
  have hout : pgpWrite o mode octets = .ok (L.flatMap (fun l => l ++ [10]) ++ last) := by
    have eb : armorBegin = ascii "-----BEGIN PGP " := by decide
    have ee : armorEnd = ascii "-----END PGP " := by decide
    rw [pgpWrite, if_neg, armorText, armorLabel_eq _ h1 h6]
    · simp only [hc, Out.ok_bind, formatString, b1, Out.pure_eq, hL, hlast, List.flatMap_append, List.flatMap_cons, List.flatMap_nil,
        List.append_nil, List.flatMap_map, List.append_assoc, eb, ee, dashes5, List.nil_append, show ascii "=" = [61] from rfl]
    · rcases hm with rfl | ⟨rfl, h⟩
      · simp
      · simp [h]
  have hlines : getlines (L.flatMap (fun l => l ++ [10]) ++ last) = L ++ [last] := by
    rw [getlines_unlines hLnolf, getlines_last]
    · simp only [hlast, List.mem_append, not_or]
      exact ⟨⟨by decide, fun h => hlab 10 h rfl⟩, by decide⟩
    · rw [hlast, show ascii "-----" = 45 :: ascii "----" from by decide]
      simp
  refine ⟨_, body, hout, ?_, ?_, b2, b3⟩
  · rw [hlines, armorLines]
  · rw [hlines, List.map_append, hLtrim, List.map_singleton, hdash]

/-- Writing with armor and reading back: the same type, headers and packets, for every packet list whose octets are not empty and are
read back (C06). -/
theorem C15_roundtrip (parse : Nat → Fmt → Span → Out α) (o : PgpObj α) (mode : ArmorMode) (octets : Bytes) (h1 : 1 ≤ o.type)
    (h6 : o.type ≤ 6) (hh : ∀ h ∈ o.keys, goodHeader h) (hm : mode = .yes ∨ (mode = .default ∧ o.armored = true)) (ho : octets ≠ [])
    (hr : readRaw parse octets = .ok o.packets) :
    ∃ out, pgpWrite o mode octets = .ok out ∧ pgpRead parse .fresh out = .ok { o with armored := true } := by
  obtain ⟨out, body, hw, hl, ht, hb, he⟩ := C15_written o mode octets h1 h6 hh hm
  refine ⟨out, hw, ?_⟩
  have := C15_read parse .fresh out [] [] body o.type o.keys octets (ascii2radix64 (be 3 (crc24 octets).toNat))
    (be 3 (crc24 octets).toNat) h1 h6 (by rw [ht, hl]; simp) (by simp) hh hb (fun l h => (he l h).1) ho
    (C02_radix64_roundtrip_default _ (by intro h; have := congrArg List.length h; simp at this))
  rw [this, hr]
  rfl

/-- The same for packet objects, with the packets of C06. -/
theorem C15_packets (n : Nat) (o : PgpObj (Pkt (SigAt n))) (h1 : 1 ≤ o.type) (h6 : o.type ≤ 6) (hh : ∀ h ∈ o.keys, goodHeader h)
    (hp : placed n 0 o.packets) (hne : o.packets ≠ []) :
    ∃ octets out, writeRaw (Pkt.write (rawAt n)) o.packets = .ok octets ∧ pgpWrite o .yes octets = .ok out ∧
      pgpRead (Pkt.parse (readSigAt n)) .fresh out = .ok { o with armored := true } := by
  obtain ⟨octets, hw, hl, hread⟩ := placed_loop n o.packets 0 hp
  have ho : octets ≠ [] := by
    rintro rfl
    exact hne (List.length_eq_zero_iff.mp (by simpa using hl))
  have hr := hread octets (octets.length + 1) (by omega) (by simp) (by omega)
  obtain ⟨out, h2, h3⟩ := C15_roundtrip (Pkt.parse (readSigAt n)) o .yes octets h1 h6 hh (Or.inl rfl) ho hr
  exact ⟨octets, out, hw, h2, h3⟩

/-- Without armor: the octets are written, and read back when no line in them looks like an armor header. -/
theorem C15_binary (parse : Nat → Fmt → Span → Out α) (o : PgpObj α) (octets : Bytes)
    (hl : ∀ l ∈ getlines octets, ¬ ascii "-----BEGIN PGP " <+: rtrim l) (hr : readRaw parse octets = .ok o.packets) :
    pgpWrite o .no octets = .ok octets ∧ pgpRead parse .fresh octets = .ok ⟨false, 0, [], o.packets⟩ := by
  have eb : armorBegin = ascii "-----BEGIN PGP " := by decide
  refine ⟨by simp [pgpWrite], ?_⟩
  rw [pgpRead, findBegin_none (by rw [eb]; exact hl)]
  simp [hr, PgpObj.fresh]

/-- The checksum is not enforced: armor with any other decodable checksum reads the same. -/
theorem C15_checksum_fails (parse : Nat → Fmt → Span → Out α) (o : PgpObj α) (data data' : Bytes) (body : List Bytes) (t : Nat)
    (octets chk chk' c c' : Bytes) (h1 : 1 ≤ t) (h6 : t ≤ 6)
    (hd : (getlines data).map rtrim = armorLines t [] body chk) (hd' : (getlines data').map rtrim = armorLines t [] body chk')
    (hb : body.flatten = ascii2radix64 octets) (he : ∀ l ∈ body, l.head? ≠ some 61) (ho : octets ≠ [])
    (hc : radix642ascii chk = .ok c) (hc' : radix642ascii chk' = .ok c') :
    pgpRead parse o data = pgpRead parse o data' := by
  rw [C15_read parse o data [] [] body t [] octets chk c h1 h6 (by simp [hd]) (by simp) (by simp) hb he ho hc,
    C15_read parse o data' [] [] body t [] octets chk' c' h1 h6 (by simp [hd']) (by simp) (by simp) hb he ho hc']

/-- An object of unknown type is written with armor that cannot be read. -/
theorem C15_unknown_type_throws (parse : Nat → Fmt → Span → Out α) (o : PgpObj α) :
    ∃ out, pgpWrite { o with type := 0, keys := [] } .yes [0xb0, 0] = .ok out ∧ pgpRead parse .fresh out = .throw := by
  have h : armorText 0 [] [0xb0, 0] = .ok (ascii "-----BEGIN PGP -----\n\nsAA=\n=6gbi\n-----END PGP -----") := by decide +kernel
  refine ⟨_, h, ?_⟩
  have h2 : findBegin (getlines (ascii "-----BEGIN PGP -----\n\nsAA=\n=6gbi\n-----END PGP -----")) =
    some (ascii "-----BEGIN PGP -----", [[], ascii "sAA=", ascii "=6gbi", ascii "-----END PGP -----"]) := by decide +kernel
  have h3 : armorType (ascii "-----BEGIN PGP -----") 1 ((armorHeaders.drop 1).take 6) = 7 := by decide +kernel
  unfold pgpRead
  simp only [h2, h3, if_true]

/-- An object without packets is written with armor; reading that is undefined behaviour. -/
theorem C15_empty_ub (parse : Nat → Fmt → Span → Out α) (o : PgpObj α) :
    ∃ out, pgpWrite { o with type := 1, keys := [] } .yes [] = .ok out ∧ pgpRead parse .fresh out = .ub := by
  have h : armorText 1 [] [] = .ok (ascii "-----BEGIN PGP MESSAGE-----\n\n=twTO\n-----END PGP MESSAGE-----") := by decide +kernel
  refine ⟨_, h, ?_⟩
  have h2 : findBegin (getlines (ascii "-----BEGIN PGP MESSAGE-----\n\n=twTO\n-----END PGP MESSAGE-----")) =
    some (ascii "-----BEGIN PGP MESSAGE-----", [[], ascii "=twTO", ascii "-----END PGP MESSAGE-----"]) := by decide +kernel
  have h3 : armorType (ascii "-----BEGIN PGP MESSAGE-----") 1 ((armorHeaders.drop 1).take 6) = 1 := by decide +kernel
  have h4 : armorKeys [[], ascii "=twTO", ascii "-----END PGP MESSAGE-----"] = ([], [ascii "=twTO", ascii "-----END PGP MESSAGE-----"]) := by
    decide +kernel
  have h5 : armorBody [] [] [ascii "=twTO", ascii "-----END PGP MESSAGE-----"] = ([], ascii "=twTO") := by decide +kernel
  have h6 : armorDecode [] (ascii "=twTO") = .ub := by decide +kernel
  unfold pgpRead
  simp only [h2, h3, h4, h5, h6]
  rfl

/-- An empty header value is lost. -/
theorem C15_empty_header_fails : armorKeys [ascii "Comment: ", ascii "", ascii "x"] = ([], [ascii "x"]) := by decide +kernel

/-- If the body is broken so that the padding stands on a line of its own, the padding is taken for a checksum and all packets are lost. -/
theorem C15_padding_line_fails :
    (∀ text ∈ [ascii "-----BEGIN PGP MESSAGE-----\n\nygJQRw==\n-----END PGP MESSAGE-----"],
      pgpRead (Pkt.parse (readSigAt 0)) .fresh text = .ok ⟨true, 1, [], [⟨.new, false, .marker (ascii "PG")⟩]⟩) ∧
    (∀ text ∈ [ascii "-----BEGIN PGP MESSAGE-----\n\nygJQRw\n==\n-----END PGP MESSAGE-----"],
      pgpRead (Pkt.parse (readSigAt 0)) .fresh text = .ok ⟨true, 1, [], []⟩) := by decide +kernel

/-- A binary message whose text contains armored data is not read as what it is, but as the armored data inside: here a literal packet that
contains an armored marker packet. -/
theorem C15_binary_confused_fails :
    let inner := ascii "\n-----BEGIN PGP MESSAGE-----\n\nygNQR1A=\n-----END PGP MESSAGE-----"
    let p : Pkt (SigAt 0) := ⟨.new, false, .literal ⟨0x62, [], 0, inner⟩⟩
    ∃ octets, p.write (rawAt 0) = .ok octets ∧ readRaw (Pkt.parse (readSigAt 0)) octets = .ok [p] ∧
      pgpRead (Pkt.parse (readSigAt 0)) .fresh octets = .ok ⟨true, 1, [], [⟨.new, false, .marker (ascii "PGP")⟩]⟩ := by
  refine ⟨_, rfl, by decide +kernel, by decide +kernel⟩

/-! ## Examples -/

example : goodHeader (ascii "Version", ascii "CC 1") := by
  refine ⟨by decide, by decide, by decide, by decide, ?_, ?_⟩ <;>
  · intro c hc h
    have := (isWs_iff c).mpr h
    simp only [ascii] at hc
    obtain rfl := Option.some.inj hc
    exact absurd this (by decide)

/-- A key block with a header, as C15_packets wants it. -/
example : ∃ o : PgpObj (Pkt (SigAt 0)), 1 ≤ o.type ∧ o.type ≤ 6 ∧ o.packets = c06Packets ∧ o.keys = [(ascii "Version", ascii "CC 1")] :=
  ⟨⟨false, 2, [(ascii "Version", ascii "CC 1")], c06Packets⟩, by decide, by decide, rfl, rfl⟩

/-- Text in front, CR LF line ends, a body in lines of 4 characters and text behind. -/
example : (getlines (ascii "hi\r\n-----BEGIN PGP MESSAGE-----\r\n\r\nygNQ\r\nR1A=\r\n=AAAA\r\n-----END PGP MESSAGE----- \nbye")).map rtrim =
    [ascii "hi"] ++ armorLines 1 [] [ascii "ygNQ", ascii "R1A="] (ascii "AAAA") ++ [ascii "bye"] ∧
    [ascii "ygNQ", ascii "R1A="].flatten = ascii2radix64 [0xca, 3, 0x50, 0x47, 0x50] ∧ radix642ascii (ascii "AAAA") = .ok [0, 0, 0] := by
  decide +kernel

end OpenPGP
