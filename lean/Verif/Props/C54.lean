import Verif.Lemmas.Compress
import Verif.Lemmas.CompressDemo
import Verif.Props.C51

/-!
# C54: compressing and decompressing
-/
namespace OpenPGP

variable {σ τ : Type} {Form : Bytes → Bytes → Prop} {c : Coder σ}

theorem Ran.To.unique {α : Type} {run : Nat → Ran α} {r r' : Ran α} (h : Ran.To run r) (h' : Ran.To run r') : r = r' := by
  obtain ⟨n, hn⟩ := h
  obtain ⟨n', hn'⟩ := h'
  rw [← hn (n + n') (by omega), hn' (n + n') (by omega)]

theorem Ran.outcome_of {run : Nat → Ran (Bool × Bytes)} {r : Ran (Bool × Bytes)} (h : Ran.To run r) : Ran.outcome run = r.out := by
  have hex : ∃ r, Ran.To run r := ⟨r, h⟩
  rw [Ran.outcome, dif_pos hex, hex.choose_spec.unique h]

theorem Ran.To.map {α β : Type} {run : Nat → Ran α} {r : Ran α} (h : Ran.To run r) (f : α → Ran β) :
    Ran.To (fun n => (run n).bind f) (r.bind f) := by
  obtain ⟨n, hn⟩ := h
  exact ⟨n, fun fuel hf => by simp only [hn fuel hf]⟩

/-- `zlib_compress` returns a compressed form of the first `size mod 2^32` octets of its argument. -/
theorem C54_zlib_compress (hc : Compressor .zlib Form c) (src : Bytes) (hs : src.length % 2 ^ 32 + 16384 ≤ 2 ^ 32) :
    ∃ z, Form (src.take (src.length % 2 ^ 32)) z ∧ ∀ nd, Ran.To (compressRun nd .zlib c src) (.val (true, z)) := by
  obtain ⟨start, hi⟩ := hc.opens
  obtain ⟨full, z, h1, -, -, h3⟩ := compressOuter_spec hc hi src (src.length % 2 ^ 32) (Nat.mod_le _ _) hs _ start 0 [] (Nat.lt_succ_self _)
    (by omega) .start
  refine ⟨z, h1, fun nd => ?_⟩
  have := (h3 nd).map (fun dst => Ran.val (true, dst))
  rw [show (full && Lib.zlib == Lib.bzip2 && !nd) = false by cases full <;> rfl] at this
  obtain ⟨n, hn⟩ := this
  refine ⟨n, fun fuel hf => ?_⟩
  simp only [compressRun, hi]
  exact hn fuel hf

/-- `zlib_decompress` always returns. It returns `Z_OK` exactly if the first `size mod 2^32` octets begin with a complete stream, and
then `dst` is what that stream stands for. -/
theorem C54_zlib_decompress (hc : Decompressor .zlib Form c) (src : Bytes) (hs : src.length % 2 ^ 32 + 16384 < 2 ^ 32) :
    ∃ good y, (∀ nd, Ran.To (inflateRun nd c src) (.val (good, y))) ∧
      (good = true → ∃ z, Form y z ∧ z <+: src.take (src.length % 2 ^ 32)) ∧
      (∀ d z, Form d z → z <+: src.take (src.length % 2 ^ 32) → good = true ∧ y = d) := by
  obtain ⟨start, hi⟩ := hc.opens
  obtain ⟨good, y, h1, h2, h3⟩ := inflateOuter_spec hc hi src (src.length % 2 ^ 32) (Nat.mod_le _ _) hs _ start 0 [] (Nat.lt_succ_self _)
    (Nat.zero_le _) .start (by
      intro d z hf hz
      rw [List.take_zero, List.prefix_nil] at hz
      exact hc.nonempty d (hz ▸ hf))
  refine ⟨good, y, fun nd => ?_, ?_, h3⟩
  · obtain ⟨n, hn⟩ := h1 nd
    refine ⟨n, fun fuel hf => ?_⟩
    simp only [inflateRun, hi]
    exact hn fuel hf
  · intro hg
    obtain ⟨u, hu, hf⟩ := h2 hg
    refine ⟨_, hf, ?_⟩
    rw [show u = min u (src.length % 2 ^ 32) by omega, ← List.take_take]
    exact List.take_prefix _ _

/-- What ZIP or ZLIB compression makes of data of up to 4 GiB less 16 KiB, decompression undoes, whatever follows it. -/
theorem C54_zlib_roundtrip {e : Coder τ} (hc : Compressor .zlib Form c) (he : Decompressor .zlib Form e) (src : Bytes) (hs : src.length + 16384 ≤ 2 ^ 32) :
    ∃ z, (∀ nd, Ran.To (compressRun nd .zlib c src) (.val (true, z))) ∧ z ≠ [] ∧
      ∀ after, (z ++ after).length + 16384 < 2 ^ 32 → ∀ nd, Ran.To (inflateRun nd e (z ++ after)) (.val (true, src)) := by
  have hm : src.length % 2 ^ 32 = src.length := Nat.mod_eq_of_lt (by omega)
  obtain ⟨z, h1, h2⟩ := C54_zlib_compress hc src (by rw [hm]; exact hs)
  rw [hm, List.take_length] at h1
  refine ⟨z, h2, fun h => he.nonempty src (h ▸ h1), fun after ha => ?_⟩
  have hm2 : (z ++ after).length % 2 ^ 32 = (z ++ after).length := Nat.mod_eq_of_lt (by omega)
  obtain ⟨good, y, g1, -, g3⟩ := C54_zlib_decompress he (z ++ after) (by rw [hm2]; exact ha)
  obtain ⟨rfl, rfl⟩ := g3 src z h1 (by rw [hm2, List.take_length]; exact List.prefix_append _ _)
  exact g1

/-- Octets that do not begin with a complete stream are rejected: `Compression::decompress` throws. -/
theorem C54_zlib_reject (hc : Decompressor .zlib Form c) (src : Bytes) (hs : src.length + 16384 < 2 ^ 32)
    (hno : ∀ d z, Form d z → ¬ z <+: src) (nd : Bool) : Ran.outcome (inflateRun nd c src) = .throw := by
  have hm : src.length % 2 ^ 32 = src.length := Nat.mod_eq_of_lt (by omega)
  obtain ⟨good, y, g1, g2, -⟩ := C54_zlib_decompress hc src (by rw [hm]; exact hs)
  rw [Ran.outcome_of (g1 nd)]
  cases good with
  | false => rfl
  | true =>
    obtain ⟨z, hz1, hz2⟩ := g2 rfl
    rw [hm, List.take_length] at hz2
    exact absurd hz2 (hno y z hz1)

/-- Data of 4 GiB and more is cut off at `size mod 2^32`: what comes back from compression and decompression is a proper
beginning of it, with no error reported. -/
theorem C54_4gib_fails {e : Coder τ} (hc : Compressor .zlib Form c) (he : Decompressor .zlib Form e) (src : Bytes) (hbig : 2 ^ 32 ≤ src.length)
    (hs : src.length % 2 ^ 32 + 16384 ≤ 2 ^ 32) :
    ∃ z, (∀ nd, Ran.To (compressRun nd .zlib c src) (.val (true, z))) ∧
      (z.length + 16384 < 2 ^ 32 → ∀ nd, Ran.To (inflateRun nd e z) (.val (true, src.take (src.length % 2 ^ 32)))) ∧
      src.take (src.length % 2 ^ 32) ≠ src := by
  obtain ⟨z, h1, h2⟩ := C54_zlib_compress hc src hs
  refine ⟨z, h2, fun hz => ?_, ?_⟩
  · have hm2 : z.length % 2 ^ 32 = z.length := Nat.mod_eq_of_lt (by omega)
    obtain ⟨good, y, g1, -, g3⟩ := C54_zlib_decompress he z (by rw [hm2]; exact hz)
    obtain ⟨rfl, rfl⟩ := g3 _ z h1 (by rw [hm2, List.take_length])
    exact g1
  · intro h
    have := congrArg List.length h
    rw [List.length_take] at this
    have := Nat.mod_lt src.length (Nat.two_pow_pos 32)
    omega

/-- Data of less than one buffer short of 4 GiB: `zlib_compress` and `bz2_compress` read past its end. -/
theorem C54_wrap_ub (lib : Lib) (hc : Compressor lib Form c) (src : Bytes) (h1 : 2 ^ 32 < src.length + lib.chunk) (h2 : src.length + 1 < 2 ^ 32)
    (nd : Bool) : Ran.To (compressRun nd lib c src) .ub := by
  have hm : src.length % 2 ^ 32 = src.length := Nat.mod_eq_of_lt (by omega)
  obtain ⟨start, hi⟩ := hc.opens
  obtain ⟨n, hn⟩ := compressOuter_wrap hc hi src h1 h2 nd _ start 0 [] (Nat.lt_succ_self _) (by have := lib.chunk_lt; omega) (Nat.dvd_zero _) .start
  refine ⟨n, fun fuel hf => ?_⟩
  simp only [compressRun, hi, hm]
  rw [show compressOuter nd lib c src src.length fuel start 0 [] = .ub from hn fuel hf]
  rfl

/-- `bz2_compress` makes a compressed form of its argument without assertions. With assertions it may abort: for arguments of up to 4096
octets it does so exactly if the size of the result is a multiple of 4096. -/
theorem C54_bzip2_compress_partial (hc : Compressor .bzip2 Form c) (src : Bytes) (hs : src.length + 4096 ≤ 2 ^ 32) :
    ∃ z, Form src z ∧ Ran.To (compressRun true .bzip2 c src) (.val (true, z)) ∧
      (Ran.To (compressRun false .bzip2 c src) (.val (true, z)) ∨ Ran.To (compressRun false .bzip2 c src) .abort) ∧
      (src.length ≤ 4096 → z ≠ [] → (Ran.To (compressRun false .bzip2 c src) .abort ↔ 4096 ∣ z.length)) := by
  have hm : src.length % 2 ^ 32 = src.length := Nat.mod_eq_of_lt (by omega)
  obtain ⟨start, hi⟩ := hc.opens
  obtain ⟨full, z, h1, -, h2, h3⟩ := compressOuter_spec hc hi src (src.length % 2 ^ 32) (Nat.mod_le _ _) (by rw [hm]; exact hs) _ start 0 []
    (Nat.lt_succ_self _) (by omega) .start
  rw [hm, List.take_length] at h1
  have hrun : ∀ nd, Ran.To (compressRun nd .bzip2 c src) (if full && !nd then .abort else .val (true, z)) := by
    intro nd
    have := (h3 nd).map (fun dst => Ran.val (true, dst))
    obtain ⟨n, hn⟩ := this
    refine ⟨n, fun fuel hf => ?_⟩
    simp only [compressRun, hi]
    rw [show (fun dst => Ran.val (true, dst)) = fun dst => (Ran.val (true, dst) : Ran (Bool × Bytes)) from rfl] at hn
    have := hn fuel hf
    simp only at this
    rw [this]
    cases full <;> cases nd <;> rfl
  have ht := hrun true
  have hf := hrun false
  refine ⟨z, h1, ?_, ?_, ?_⟩
  · simpa using ht
  · cases full
    · exact Or.inl hf
    · exact Or.inr hf
  · intro hle hne
    have h2 := h2 rfl (by rw [hm]; exact (by omega : src.length ≤ 0 + 4096))
    have hfull : full = true ↔ 4096 ∣ z.length := by
      rw [h2]
      simp [Lib.chunk, List.length_pos_iff, hne]
    constructor
    · intro ha
      apply hfull.mp
      by_contra hno
      rw [Bool.not_eq_true] at hno
      rw [hno] at hf
      exact absurd (ha.unique hf) (by simp)
    · intro hd
      rw [hfull.mpr hd] at hf
      exact hf

/-- `bz2_decompress` on a complete stream and nothing else: it returns what the stream stands for, or, with assertions, it aborts, and
without, it never ends. For streams of up to 4096 octets the latter happens exactly if the data is some positive number of blocks of 4096
octets. -/
theorem C54_bzip2_decompress_partial (hc : Decompressor .bzip2 Form c) (d z : Bytes) (hf : Form d z) (hs : z.length + 4096 < 2 ^ 32) :
    ((∀ nd, Ran.To (bunzipRun nd c z) (.val (true, d))) ∨
      (Ran.To (bunzipRun false c z) .abort ∧ Ran.Forever (bunzipRun true c z))) ∧
    (z.length ≤ 4096 → ¬ (d ≠ [] ∧ 4096 ∣ d.length) → ∀ nd, Ran.To (bunzipRun nd c z) (.val (true, d))) := by
  have hm : z.length % 2 ^ 32 = z.length := Nat.mod_eq_of_lt (by omega)
  obtain ⟨start, hi⟩ := hc.opens
  obtain ⟨full, h1, h2, h3⟩ := bunzipOuter_spec hc hi hf z z.length (Nat.le_refl _) (by rw [List.take_length]) hs _ start 0 [] (Nat.lt_succ_self _)
    (Nat.zero_le _) (Nat.dvd_zero _) .start (by
      rw [List.take_zero, List.prefix_nil]
      intro h
      exact hc.nonempty d (h ▸ hf))
  rw [if_congr (P := full = true ∨ z.length ≠ z.length ∧ ¬ Lib.bzip2.chunk ∣ z.length) (Q := full = true) (by simp) rfl rfl] at h2
  have hrun : ∀ nd fuel, bunzipRun nd c z fuel = (bunzipOuter nd c z z.length fuel start 0 []).bind fun dst => .val (true, dst) := by
    intro nd fuel
    simp only [bunzipRun, hi, hm]
  have hto : full = false → ∀ nd, Ran.To (bunzipRun nd c z) (.val (true, d)) := by
    rintro rfl nd
    cases nd
    · rw [show bunzipRun false c z = fun fuel => _ from funext (hrun false)]
      exact h2.map _
    · rw [show bunzipRun true c z = fun fuel => _ from funext (hrun true)]
      exact Ran.To.map (r := .val d) h3 _
  constructor
  · cases full with
    | false => exact Or.inl (hto rfl)
    | true =>
      right
      constructor
      · rw [show bunzipRun false c z = fun fuel => _ from funext (hrun false)]
        exact h2.map _
      · intro fuel
        rw [hrun, show bunzipOuter true c z z.length fuel start 0 [] = .diverge from h3 fuel]
        rfl
  · intro hz hno
    apply hto
    by_contra h
    rw [Bool.not_eq_false] at h
    have := (h1 (by simpa [Lib.chunk] using hz)).mp h
    exact hno ⟨List.length_pos_iff.mp this.1, by simpa [Lib.chunk] using this.2⟩

/-- Any number of blocks of 4096 octets that bzip2 compresses to at most 4096 octets cannot be decompressed: `bz2_decompress` aborts, or,
built without assertions, never ends. -/
theorem C54_bzip2_blocks_fails (hc : Decompressor .bzip2 Form c) (d z : Bytes) (hf : Form d z) (hz : z.length ≤ 4096)
    (hd : d ≠ []) (hdvd : 4096 ∣ d.length) :
    Ran.To (bunzipRun false c z) .abort ∧ Ran.Forever (bunzipRun true c z) := by
  have hs : z.length + 4096 < 2 ^ 32 := by omega
  have hm : z.length % 2 ^ 32 = z.length := Nat.mod_eq_of_lt (by omega)
  obtain ⟨start, hi⟩ := hc.opens
  obtain ⟨full, h1, h2, h3⟩ := bunzipOuter_spec hc hi hf z z.length (Nat.le_refl _) (by rw [List.take_length]) hs _ start 0 [] (Nat.lt_succ_self _)
    (Nat.zero_le _) (Nat.dvd_zero _) .start (by
      rw [List.take_zero, List.prefix_nil]
      intro h
      exact hc.nonempty d (h ▸ hf))
  have hfull : full = true := (h1 (by simpa [Lib.chunk] using hz)).mpr ⟨by simpa [List.length_pos_iff] using hd, by simpa [Lib.chunk] using hdvd⟩
  rw [if_pos (Or.inl hfull)] at h2
  rw [if_pos hfull] at h3
  constructor
  · obtain ⟨n, hn⟩ := h2
    refine ⟨n, fun fuel hfu => ?_⟩
    have := hn fuel hfu
    simp only [bunzipRun, hi, hm]
    rw [show bunzipOuter false c z z.length fuel start 0 [] = .abort from this]
    rfl
  · intro fuel
    simp only [bunzipRun, hi, hm]
    rw [show bunzipOuter true c z z.length fuel start 0 [] = .diverge from h3 fuel]
    rfl

/-- Octets behind a bzip2 stream abort the program, unless the stream is a whole number of blocks of 4096 octets; without assertions they
are ignored. -/
theorem C54_bzip2_trailing_fails (hc : Decompressor .bzip2 Form c) (d z after : Bytes) (hf : Form d z) (ha : after ≠ [])
    (hdvd : ¬ 4096 ∣ z.length) (hs : (z ++ after).length + 4096 < 2 ^ 32) : Ran.To (bunzipRun false c (z ++ after)) .abort := by
  have hm : (z ++ after).length % 2 ^ 32 = (z ++ after).length := Nat.mod_eq_of_lt (by omega)
  obtain ⟨start, hi⟩ := hc.opens
  obtain ⟨full, -, h2, -⟩ := bunzipOuter_spec hc hi hf (z ++ after) (z ++ after).length (Nat.le_refl _)
    (by rw [List.take_length]; exact List.prefix_append _ _) hs _ start 0 [] (Nat.lt_succ_self _)
    (Nat.zero_le _) (Nat.dvd_zero _) .start (by
      rw [List.take_zero, List.prefix_nil]
      intro h
      exact hc.nonempty d (h ▸ hf))
  rw [if_pos (Or.inr ⟨by have := List.length_pos_iff.mpr ha; rw [List.length_append]; omega, hdvd⟩)] at h2
  obtain ⟨n, hn⟩ := h2
  refine ⟨n, fun fuel hfu => ?_⟩
  have := hn fuel hfu
  simp only [bunzipRun, hi, hm]
  rw [show bunzipOuter false c (z ++ after) (z ++ after).length fuel start 0 [] = .abort from this]
  rfl

/-- A bzip2 stream that is cut off anywhere keeps `bz2_decompress` busy for ever, with assertions and without. -/
theorem C54_bzip2_truncated_diverges (hc : Decompressor .bzip2 Form c) (d z src : Bytes) (hf : Form d z) (hsrc : src <+: z) (hne : src ≠ z)
    (hs : src.length + 4096 < 2 ^ 32) (nd : Bool) : Ran.Forever (bunzipRun nd c src) := by
  have hm : src.length % 2 ^ 32 = src.length := Nat.mod_eq_of_lt (by omega)
  obtain ⟨start, hi⟩ := hc.opens
  intro fuel
  simp only [bunzipRun, hi, hm]
  rw [bunzipOuter_truncated hc hi hf nd src hsrc hne hs fuel start 0 [] (Nat.zero_le _) .start]
  rfl

/-- `bz2_decompress` never reports an error: whatever the octets and the library, `Compression::decompress` does not throw for algorithm 3. -/
theorem C54_bzip2_never_throws (c : Coder σ) (src : Bytes) (nd : Bool) : Ran.outcome (bunzipRun nd c src) ≠ .throw := by
  rw [Ran.outcome]
  split
  · rename_i h
    obtain ⟨n, hn⟩ := h.choose_spec
    have := hn n (Nat.le_refl _)
    rw [← this, bunzipRun]
    cases c.init with
    | none => simp [Ran.out]
    | some s =>
      simp only
      cases bunzipOuter nd c src (src.length % 2 ^ 32) n s 0 [] <;> simp [Ran.out, Ran.bind]
  · simp

/-! ### What the rest of the library gets -/

/-- The streams keep their promises, for three formats. -/
structure Coders.Ok (Zip Zlib Bzip2 : Bytes → Bytes → Prop) (cs : Coders σ τ) : Prop where
  deflateRaw : Compressor .zlib Zip cs.deflateRaw
  inflateRaw : Decompressor .zlib Zip cs.inflateRaw
  deflateZlib : Compressor .zlib Zlib cs.deflateZlib
  inflateZlib : Decompressor .zlib Zlib cs.inflateZlib
  bzip : Compressor .bzip2 Bzip2 cs.bzip
  bunzip : Decompressor .bzip2 Bzip2 cs.bunzip

/-- ZIP and ZLIB compression is undone by decompression, in all builds: for data of up to 4 GiB less 16 KiB whose compressed form is smaller
than that. -/
theorem C54_undoes {Z1 Z2 Z3 : Bytes → Bytes → Prop} {cs : Coders σ τ} (h : cs.Ok Z1 Z2 Z3) (nd : Bool) (alg : UInt8) (ha : alg = 1 ∨ alg = 2)
    (src : Bytes) (hs : src.length + 16384 ≤ 2 ^ 32) (hz : ∀ c, (cs.zip nd).deflate alg src = .ok c → c.length + 16384 < 2 ^ 32) :
    (cs.zip nd).Undoes alg src := by
  rcases ha with rfl | rfl
  · obtain ⟨z, h1, h2, h3⟩ := C54_zlib_roundtrip h.deflateRaw h.inflateRaw src hs
    have hd : (cs.zip nd).deflate 1 src = .ok z := Ran.outcome_of (h1 nd)
    have h3 := h3 [] (by rw [List.append_nil]; exact hz z hd) nd
    rw [List.append_nil] at h3
    exact ⟨z, hd, h2, Ran.outcome_of h3⟩
  · obtain ⟨z, h1, h2, h3⟩ := C54_zlib_roundtrip h.deflateZlib h.inflateZlib src hs
    have hd : (cs.zip nd).deflate 2 src = .ok z := Ran.outcome_of (h1 nd)
    have h3 := h3 [] (by rw [List.append_nil]; exact hz z hd) nd
    rw [List.append_nil] at h3
    exact ⟨z, hd, h2, Ran.outcome_of h3⟩

/-- BZip2 compression of less than 4096 octets is undone by decompression if the compressed form has less than 4096 octets too. -/
theorem C54_bzip2_undoes_partial {Z1 Z2 Z3 : Bytes → Bytes → Prop} {cs : Coders σ τ} (h : cs.Ok Z1 Z2 Z3) (nd : Bool)
    (src : Bytes) (hs : src.length < 4096) (hz : ∀ z, Z3 src z → z.length < 4096) : (cs.zip nd).Undoes 3 src := by
  obtain ⟨z, h1, h2, -, h4⟩ := C54_bzip2_compress_partial h.bzip src (by omega)
  have hne : z ≠ [] := fun e => h.bunzip.nonempty src (e ▸ h1)
  have hzl := hz z h1
  obtain ⟨-, h5⟩ := C54_bzip2_decompress_partial h.bunzip src z h1 (by omega)
  have h5 := h5 (by omega) (by
    rintro ⟨hs0, hd⟩
    have := Nat.le_of_dvd (List.length_pos_iff.mpr hs0) hd
    omega) nd
  refine ⟨z, Ran.outcome_of (r := .val (true, z)) ?_, hne, Ran.outcome_of (r := .val (true, src)) h5⟩
  cases nd with
  | true => exact h2
  | false =>
    obtain ⟨z', g1, g2, g3, g4⟩ := C54_bzip2_compress_partial h.bzip src (by omega)
    have hzz : z' = z := by
      have := g2.unique h2
      simpa using this
    subst hzz
    rcases g3 with g | g
    · exact g
    · exact absurd ((h4 (by omega) hne).mp g) (fun hd => by
        have := Nat.le_of_dvd (List.length_pos_iff.mpr hne) hd
        omega)

/-- Nothing comes back from BZip2 compression of a whole number of blocks of 4096 octets that shrinks to at most 4096: it is compressed
without complaint, and decompression does not return. -/
theorem C54_bzip2_undoes_fails {Z1 Z2 Z3 : Bytes → Bytes → Prop} {cs : Coders σ τ} (h : cs.Ok Z1 Z2 Z3) (nd : Bool) (src : Bytes) (hne : src ≠ [])
    (hdvd : 4096 ∣ src.length) (hs : src.length + 4096 ≤ 2 ^ 32) (hz : ∀ z, Z3 src z → z.length ≤ 4096) : ¬ (cs.zip nd).Undoes 3 src := by
  obtain ⟨z, h1, h2, h3, -⟩ := C54_bzip2_compress_partial h.bzip src hs
  obtain ⟨b1, b2⟩ := C54_bzip2_blocks_fails h.bunzip src z h1 (hz z h1) hne hdvd
  rintro ⟨c, hc1, hc2, hc3⟩
  have hdef : (cs.zip nd).deflate 3 src = Ran.outcome (compressRun nd .bzip2 cs.bzip src) := rfl
  have hinf : ∀ c, (cs.zip nd).inflate 3 c = Ran.outcome (bunzipRun nd cs.bunzip c) := fun _ => rfl
  have hcz : c = z := by
    rw [hdef] at hc1
    cases nd with
    | true =>
      rw [Ran.outcome_of h2] at hc1
      exact (Out.ok.inj hc1).symm
    | false =>
      rcases h3 with h3 | h3
      · rw [Ran.outcome_of h3] at hc1
        exact (Out.ok.inj hc1).symm
      · rw [Ran.outcome_of h3] at hc1
        exact absurd hc1 (by simp [Ran.out])
  subst hcz
  rw [hinf] at hc3
  cases nd with
  | true =>
    have : Ran.To (bunzipRun true cs.bunzip c) .diverge := ⟨0, fun fuel _ => b2 fuel⟩
    rw [Ran.outcome_of this] at hc3
    exact absurd hc3 (by simp [Ran.out])
  | false =>
    rw [Ran.outcome_of b1] at hc3
    exact absurd hc3 (by simp [Ran.out])

/-- Passphrase encryption with the built-in ciphers and hashes and with ZIP or ZLIB compression through these loops: decryption gives the
data back. -/
theorem C54_symmetric_roundtrip_partial {E : Type} {Z1 Z2 Z3 : Bytes → Bytes → Prop} {cs : Coders σ τ} (hcs : cs.Ok Z1 Z2 Z3) (nd : Bool)
    (rawE : E → Bytes) (readE : Bytes → Out E) (a : EncArgs) (hcomp : a.comp ≤ 2) (n bs D : Nat) (h : a.Usable n bs) (hf : a.Fits (cs.zip nd))
    (hsize : a.data.length < 2 ^ 31)
    (hshrink : ∀ c, (cs.zip nd).deflate a.comp (packetOctets .new 11 (Tag11.raw ⟨0x62, a.filename, 0, a.data⟩)) = .ok c → c.length + 16384 < 2 ^ 32)
    (salt rand pass : Bytes) (hs : salt.length = 8) (hr : rand.length = bs) (keyHash : UInt8) (hD : hashLen keyHash = some D) (depth : Nat)
    (hd : 2 ≤ depth) :
    ∃ m r, encryptSym builtinCrypto (cs.zip nd) rawE a salt rand pass keyHash = .ok m ∧
      decryptSym builtinCrypto (cs.zip nd) readE depth m pass = .ok r ∧
      r.packets = [⟨.new, false, .literal ⟨0x62, a.filename, 0, a.data⟩⟩] := by
  refine C51_symmetric_roundtrip_partial rawE readE a ?_ n bs D h hf salt rand pass hs hr keyHash hD depth hd
  intro h0
  refine C54_undoes hcs nd a.comp ?_ _ ?_ hshrink
  · have h1 : a.comp.toNat ≠ 0 := fun e => h0 (UInt8.toNat_inj.mp e)
    have h2 : a.comp.toNat ≤ 2 := UInt8.le_iff_toNat_le.mp hcomp
    have : a.comp.toNat = 1 ∨ a.comp.toNat = 2 := by omega
    exact this.imp (fun e => UInt8.toNat_inj.mp e) (fun e => UInt8.toNat_inj.mp e)
  · have := h.name
    have := litRaw_length a
    have hpo : (packetOctets .new 11 (Tag11.raw ⟨0x62, a.filename, 0, a.data⟩)).length ≤ (Tag11.raw ⟨0x62, a.filename, 0, a.data⟩).length + 6 := by
      generalize Tag11.raw ⟨0x62, a.filename, 0, a.data⟩ = body
      simp only [packetOctets, writeNewDefinite, List.length_cons, List.length_append]
      have : (newLengthOctets body.length 0).length ≤ 5 := by
        simp only [newLengthOctets]
        split
        · simp
        · split
          · simp
          · split <;> simp
      omega
    omega

/-! ### The promises can be met -/

example (lib : Lib) : Compressor lib Demo.Form (Demo.pack lib) ∧ Decompressor lib Demo.Form (Demo.unpack lib) := ⟨Demo.pack_ok lib, Demo.unpack_ok lib⟩

example : (⟨Demo.pack .zlib, Demo.pack .zlib, Demo.pack .bzip2, Demo.unpack .zlib, Demo.unpack .zlib, Demo.unpack .bzip2⟩ :
    Coders Demo.Packing Demo.Unpacking).Ok Demo.Form Demo.Form Demo.Form :=
  ⟨Demo.pack_ok _, Demo.unpack_ok _, Demo.pack_ok _, Demo.unpack_ok _, Demo.pack_ok _, Demo.unpack_ok _⟩

/-- 4096 zeros in 35 octets. -/
def demoBlock : Bytes := (List.replicate 16 [255, 0]).flatten ++ [16, 0, 0]

theorem demoBlock_form : Demo.Form (List.replicate 4096 0) demoBlock := by
  have h0 : Demo.Form [] [0] := rfl
  have h : ∀ k, Demo.Form (List.replicate (255 * k + 16) 0) ((List.replicate k [255, 0]).flatten ++ [16, 0, 0]) := by
    intro k
    induction k with
    | zero => exact h0.run 16 0 (by decide) (by decide)
    | succ k ih =>
      have := ih.run 255 0 (by decide) (by decide)
      rw [← List.replicate_append_replicate.symm] at this
      rw [show 255 * (k + 1) + 16 = (255 : UInt8).toNat + (255 * k + 16) by simp; omega]
      exact this
  exact h 16

example : Demo.Form (List.replicate 4096 0) demoBlock ∧ demoBlock.length ≤ 4096 ∧ 4096 ∣ (List.replicate 4096 (0 : UInt8)).length ∧
    ¬ 4096 ∣ demoBlock.length :=
  ⟨demoBlock_form, by decide, by rw [List.length_replicate], by decide⟩

end OpenPGP
