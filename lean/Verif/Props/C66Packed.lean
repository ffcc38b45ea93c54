import Verif.Props.C27
import Verif.Props.C66

/-!
# C66: what is shown of compressed packets and of images

The packets inside a compressed packet are unpacked and shown, so the algorithm and those packets can be told from the text, but not the octets they were packed
into. Of an image only the file it is written to is shown.
-/
namespace OpenPGP
open Shown
variable {E : Type}

theorem linesFrom_up (a : List Act) : ∀ d, linesFrom d (a ++ [.up]) = linesFrom d a := by
  induction a with
  | nil => intro d; rfl
  | cons x a ih => intro d; cases x <;> simp only [List.cons_append, linesFrom, ih]

theorem compLine_inj {a b : UInt8} (h : ascii "Compression Algorithm: " ++ mapped compNames a.toNat ++ ascii " (compress " ++ dec a.toNat ++ ascii ")" =
    ascii "Compression Algorithm: " ++ mapped compNames b.toNat ++ ascii " (compress " ++ dec b.toNat ++ ascii ")") : a = b := by
  simp only [List.append_assoc] at h
  exact named_inj (lab := ascii " (compress ") (by decide +kernel) h

theorem compressed_form (env : ShowEnv E) (showE : E → Out (List Act)) (z : Zip) (readE : Bytes → Out E) (depth : Nat) (c : UInt8) (d : Bytes) (hd : d ≠ []) (l : List Act)
    (h : showCompressed env showE z readE (depth + 1) c d = .ok l) :
    ∃ data m inner, decompress z c d = .ok data ∧ Msg.readRaw z readE (depth + 1) data = .ok m ∧ m.acts (Pkt.acts env showE (showCompressed env showE z readE depth)) = .ok inner ∧
      ∀ n, linesFrom n l = (n, ascii "Compression Algorithm: " ++ mapped compNames c.toNat ++ ascii " (compress " ++ dec c.toNat ++ ascii ")") ::
        (n, ascii "Compressed Data:") :: linesFrom (n + 1) inner := by
  rw [showCompressed] at h
  obtain ⟨inner, hi, h⟩ := Out.bind_eq_ok.mp h
  rw [if_neg hd] at hi
  obtain ⟨data, h1, hi⟩ := Out.bind_eq_ok.mp hi
  obtain ⟨m, h2, hi⟩ := Out.bind_eq_ok.mp hi
  refine ⟨data, m, inner, h1, h2, hi, fun n => ?_⟩
  obtain rfl := Out.ok.inj h
  simp only [List.cons_append, List.nil_append, linesFrom, linesFrom_up]

/-- **Compressed packets.** Two compressed packets that are shown with the same lines name the same algorithm, and the packets in them are the same, if everything in
those is shown. -/
theorem C66_compressed (env : (n : Nat) → ShowEnv (SigAt n)) (ht : ∀ n, Times (env n).time) (n : Nat) (z : Zip) (depth : Nat) (c c' : UInt8) (d d' : Bytes)
    (hd : d ≠ []) (hd' : d' ≠ []) (l l' : List Act) (data data' : Bytes) (m m' : Msg (SigAt n))
    (h : showCompressed (env n) (showSig env n) z (readSigAt n) (depth + 1) c d = .ok l) (h' : showCompressed (env n) (showSig env n) z (readSigAt n) (depth + 1) c' d' = .ok l')
    (hx : decompress z c d = .ok data) (hx' : decompress z c' d' = .ok data')
    (hm : Msg.readRaw z (readSigAt n) (depth + 1) data = .ok m) (hm' : Msg.readRaw z (readSigAt n) (depth + 1) data' = .ok m')
    (hc : m.comp = none) (hc' : m'.comp = none) (hp : ∀ p ∈ m.packets, Shows n p) (hp' : ∀ p ∈ m'.packets, Shows n p)
    (e : linesFrom 0 l = linesFrom 0 l') : c = c' ∧ m = m' := by
  obtain ⟨x, k, inner, h1, h2, h3, h4⟩ := compressed_form _ _ _ _ _ _ _ hd _ h
  obtain ⟨x', k', inner', h1', h2', h3', h4'⟩ := compressed_form _ _ _ _ _ _ _ hd' _ h'
  obtain rfl := Out.ok.inj (h1.symm.trans hx)
  obtain rfl := Out.ok.inj (h1'.symm.trans hx')
  obtain rfl := Out.ok.inj (h2.symm.trans hm)
  obtain rfl := Out.ok.inj (h2'.symm.trans hm')
  rw [h4, h4'] at e
  simp only [List.cons.injEq, Prod.mk.injEq, true_and] at e
  refine ⟨compLine_inj e.1, ?_⟩
  obtain ⟨kc, kp⟩ := k
  obtain ⟨kc', kp'⟩ := k'
  simp only at hc hc'
  subst hc hc'
  have hin : ∀ (ps : List (Pkt (SigAt n))) (i : List Act), (⟨none, ps⟩ : Msg (SigAt n)).acts (Pkt.acts (env n) (showSig env n) (showCompressed (env n) (showSig env n) z (readSigAt n) depth)) = .ok i →
      pktsActs (Pkt.acts (env n) (showSig env n) (showCompressed (env n) (showSig env n) z (readSigAt n) depth)) ps = .ok i := by
    intro ps i hi
    rw [Msg.acts] at hi
    obtain ⟨y, hy, hi⟩ := Out.bind_eq_ok.mp hi
    obtain rfl := Out.ok.inj hi
    exact hy
  rw [pkts_shown env ht n _ _ kp kp' inner inner' hp hp' (hin _ _ h3) (hin _ _ h3') e.2]

/-- **Failure: the packed octets.** Whatever they are unpacked from, the same contents look the same. -/
theorem C66_compressed_fails (env : ShowEnv E) (showE : E → Out (List Act)) (z : Zip) (readE : Bytes → Out E) (depth : Nat) (c : UInt8) (d d' : Bytes) (hd : d ≠ []) (hd' : d' ≠ [])
    (data : Bytes) (hx : decompress z c d = .ok data) (hx' : decompress z c d' = .ok data) :
    showCompressed env showE z readE (depth + 1) c d = showCompressed env showE z readE (depth + 1) c d' := by
  rw [showCompressed, showCompressed, if_neg hd, if_neg hd', hx, hx']

/-- **Failure: the algorithm of a packed message.** Of a message that was read from a compressed packet the algorithm is not shown. -/
theorem C66_message_fails (f : Pkt E → Out (List Act)) (m : Msg E) (fmt : Fmt) (part : Bool) (c c' : UInt8) :
    Msg.acts f { m with comp := some (fmt, part, c) } = Msg.acts f { m with comp := some (fmt, part, c') } := rfl

/-- **Failure: images.** The lines of the text are the same for every image; the image itself goes into a file. -/
theorem C66_image_fails (env : ShowEnv E) (i : Nat) (a : Attr) (image : Bytes) (d : Nat) :
    linesFrom d (Attr.acts env i { a with image := image }) = linesFrom d (a.acts env i) := by
  unfold Attr.acts
  simp only
  split <;> split <;> rfl

/-- The file has the image, if it can be written. -/
theorem C66_image_file (env : ShowEnv E) (i : Nat) (a : Attr) (n s : Nat) (ho : ∀ name, env.opens name = true) :
    ∃ name, ((Hr.fresh s n).run (a.acts env i)).files = [(name, a.image)] := by
  refine ⟨ascii "image" ++ dec (env.imageNo i) ++ ascii "." ++ mapped imageNames a.encoding.toNat, ?_⟩
  unfold Attr.acts
  simp only [ho, if_true]
  rfl

/-! ## Cases -/

/-- A literal packet without a time, and the same packet as its octets. -/
def c66Literal : Pkt (SigAt 1) := ⟨.new, false, .literal ⟨0x62, ascii "f", 0, ascii "hi"⟩⟩

def c66Octets : Bytes := [0xcb, 9, 0x62, 1, 0x66, 0, 0, 0, 0, 0x68, 0x69]

/-- A packet compressed with number 1 (here: with the number in front of the octets). All of what is in it is shown. -/
example : decompress demoZip 1 (1 :: c66Octets) = .ok c66Octets ∧ Msg.readRaw demoZip (readSigAt 1) 2 c66Octets = .ok ⟨none, [c66Literal]⟩ ∧
    (∀ p ∈ [c66Literal], Shows 1 p) ∧
    showText (Pkt.acts (c66Env 1) (showSig c66Env 1) (showCompressed (c66Env 1) (showSig c66Env 1) demoZip (readSigAt 1) 2)) [⟨.new, false, .compressed 1 (1 :: c66Octets)⟩] 0 2 = .ok (ascii
"New: Compressed Data (Tag 8)
  Compression Algorithm: ZIP {RFC1951} (compress 1)
  Compressed Data:
    New: Literal Data (Tag 11)
      Data_Format: Binary
      Data (8 octets):
        Filename: f
        Creation Date: Thur Jan 1 00:00:00 UTC 1970
        Data: hi
", []) := by
  refine ⟨by decide +kernel, by decide +kernel, ?_, by decide +kernel⟩
  intro p hp
  obtain rfl := List.mem_singleton.mp hp
  exact ⟨⟨by decide, by decide⟩, by intro h; cases h⟩

end OpenPGP
