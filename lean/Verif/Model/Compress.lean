import Verif.Model.Crypt

/-!
# `src/Compress/*.cpp`: the loops around zlib and bzip2

zlib and bzip2 themselves are not part of the repository: they are an arbitrary `Coder`, a machine that is handed octets and
room for output (`deflate`, `inflate`, `BZ2_bzCompress`, `BZ2_bzDecompress`). What is modelled is everything the repository
does with them. Sizes are `unsigned int`, 32 bits. The default build of the repository (`CMAKE_BUILD_TYPE` Debug,
CMakeLists.txt:24) keeps `assert`; builds with `NDEBUG` do not: both are modelled.
-/
namespace OpenPGP

/-- The return codes of zlib and bzip2 the code tells apart; `other` is any of the rest. -/
inductive Rc where
  | ok
  | streamEnd
  | bufError
  | needDict
  | streamError
  | dataError
  | memError
  | seqError
  | other
  deriving DecidableEq, Repr

/-- The two libraries. -/
inductive Lib where
  | zlib
  | bzip2
  deriving DecidableEq, Repr

/-- `ZLIB_CHUNK` (pgpzlib.h:15) and `bz2_BUFFER_SIZE` (pgpbzip2.h:30). -/
def Lib.chunk : Lib → Nat
  | .zlib => 16384
  | .bzip2 => 4096

/-- The code `assert`ed against behind each call: `Z_STREAM_ERROR` (pgpzlib.cpp:57) and `BZ_SEQUENCE_ERROR`
(pgpbzip2.cpp:40). -/
def Lib.misuse : Lib → Rc
  | .zlib => .streamError
  | .bzip2 => .seqError

/-- What one call to the library returns: the code, how many octets of input were used up, the octets put out, and the new
state of the stream. -/
structure Called (σ : Type) where
  rc : Rc
  used : Nat
  out : Bytes
  next : σ

/-- A stream of the library: `init` is the state after `deflateInit2` and its like, `none` when that fails; `call s finish input
room` is one call with `avail_in`, `next_in` saying `input` and `avail_out` saying `room`, and with `Z_FINISH`/`BZ_FINISH` or not. -/
structure Coder (σ : Type) where
  init : Option σ
  call : σ → Bool → Bytes → Nat → Called σ

/-- How a run ends: with a value, by a failed assertion, by undefined behaviour, or not at all. -/
inductive Ran (α : Type) where
  | val (a : α)
  | abort
  | ub
  | diverge
  deriving DecidableEq, Repr

namespace Ran

def bind {α β : Type} (x : Ran α) (f : α → Ran β) : Ran β :=
  match x with
  | val a => f a
  | abort => abort
  | ub => ub
  | diverge => diverge

/-- `assert(cond)`: nothing under `NDEBUG`. -/
def assert (ndebug : Bool) (cond : Bool) : Ran Unit := if ndebug || cond then .val () else .abort

end Ran

variable {σ : Type}

/-- The number of octets handed over in one round, `((index + CHUNK) < len) ? CHUNK : (len - index)` in 32 bits
(pgpzlib.cpp:44 and 114, pgpbzip2.cpp:28 and 74). -/
def takeIn (chunk len index : Nat) : Nat :=
  if (index + chunk) % 2 ^ 32 < len then chunk else (len + 2 ^ 32 - index) % 2 ^ 32

/-- The octets at `&src[index]` (pgpzlib.cpp:45): those of the string and the zero behind it; more than that is outside. -/
def handIn (src : Bytes) (index n : Nat) : Ran Bytes :=
  if src.length + 1 < index + n then .ub else .val (((src ++ [0]).drop index).take n)

/-- The inner loop of `zlib_compress` (pgpzlib.cpp:53-64) and `bz2_compress` (pgpbzip2.cpp:35-42): call until there is room left.
Returns the last code, the input left over, the stream and the output so far. -/
def compressInner (ndebug : Bool) (lib : Lib) (c : Coder σ) (finish : Bool) : (fuel : Nat) → σ → Bytes → Bytes → Ran (Rc × Bytes × σ × Bytes)
  | 0, _, _, _ => .diverge
  | fuel + 1, s, input, dst =>
    let r := c.call s finish input lib.chunk
    (Ran.assert ndebug (r.rc ≠ lib.misuse)).bind fun _ =>
    if lib.chunk - r.out.length = 0 then compressInner ndebug lib c finish fuel r.next (input.drop r.used) (dst ++ r.out)
    else .val (r.rc, input.drop r.used, r.next, dst ++ r.out)

/-- The outer loop of `zlib_compress` (pgpzlib.cpp:36-69) and `bz2_compress` (pgpbzip2.cpp:27-46), on the rest of the run. -/
def compressOuter (ndebug : Bool) (lib : Lib) (c : Coder σ) (src : Bytes) (len : Nat) : (fuel : Nat) → σ → Nat → Bytes → Ran Bytes
  | 0, _, _, _ => .diverge
  | fuel + 1, s, index, dst =>
    let n := takeIn lib.chunk len index
    (handIn src index n).bind fun input =>
    let index := (index + n) % 2 ^ 32
    let finish := index == len
    (compressInner ndebug lib c finish fuel s input dst).bind fun r =>
    (Ran.assert ndebug (r.2.1 = [])).bind fun _ =>
    if finish then (Ran.assert ndebug (r.1 = .streamEnd)).bind fun _ => .val r.2.2.2
    else compressOuter ndebug lib c src len fuel r.2.2.1 index r.2.2.2

/-- `zlib_compress` (pgpzlib.cpp:13-74) and `bz2_compress` (pgpbzip2.cpp:5-49): whether `Z_OK`/`BZ_OK` is returned, and `dst`.
The stream of bzip2 is closed although it was never opened when opening it fails (pgpbzip2.cpp:22-25): its `state` is not set then. -/
def compressRun (ndebug : Bool) (lib : Lib) (c : Coder σ) (src : Bytes) (fuel : Nat) : Ran (Bool × Bytes) :=
  match c.init, lib with
  | none, .zlib => .val (false, [])
  | none, .bzip2 => .ub
  | some s, _ => (compressOuter ndebug lib c src (src.length % 2 ^ 32) fuel s 0 []).bind fun dst => .val (true, dst)

/-- The inner loop of `zlib_decompress` (pgpzlib.cpp:123-146). `none` is the return in the `switch`. -/
def inflateInner (ndebug : Bool) (c : Coder σ) : (fuel : Nat) → σ → Bytes → Bytes → Ran (Option (Rc × σ) × Bytes)
  | 0, _, _, _ => .diverge
  | fuel + 1, s, input, dst =>
    let r := c.call s false input Lib.zlib.chunk
    (Ran.assert ndebug (r.rc ≠ .streamError)).bind fun _ =>
    if r.rc = .needDict ∨ r.rc = .dataError ∨ r.rc = .memError then .val (none, dst)
    else if Lib.zlib.chunk - r.out.length = 0 then inflateInner ndebug c fuel r.next (input.drop r.used) (dst ++ r.out)
    else .val (some (r.rc, r.next), dst ++ r.out)

/-- The outer loop of `zlib_decompress` (pgpzlib.cpp:107-149). The input left over by the inner loop is dropped. -/
def inflateOuter (ndebug : Bool) (c : Coder σ) (src : Bytes) (len : Nat) : (fuel : Nat) → σ → Nat → Bytes → Ran (Bool × Bytes)
  | 0, _, _, _ => .diverge
  | fuel + 1, s, index, dst =>
    let n := takeIn Lib.zlib.chunk len index
    (handIn src index n).bind fun input =>
    if n = 0 then .val (false, dst)
    else (inflateInner ndebug c fuel s input dst).bind fun r =>
      match r.1 with
      | none => .val (false, r.2)
      | some (rc, s) => if rc = .streamEnd then .val (true, r.2)
        else inflateOuter ndebug c src len fuel s ((index + n) % 2 ^ 32) r.2

/-- `zlib_decompress` (pgpzlib.cpp:82-154). The code it returns when the loop is left for want of input is that of the last call, which
is not `Z_STREAM_END`. -/
def inflateRun (ndebug : Bool) (c : Coder σ) (src : Bytes) (fuel : Nat) : Ran (Bool × Bytes) :=
  match c.init with
  | none => .val (false, [])
  | some s => inflateOuter ndebug c src (src.length % 2 ^ 32) fuel s 0 []

/-- The inner loop of `bz2_decompress` (pgpbzip2.cpp:80-88). -/
def bunzipInner (ndebug : Bool) (c : Coder σ) : (fuel : Nat) → σ → Bytes → Bytes → Ran (Rc × Bytes × σ × Bytes)
  | 0, _, _, _ => .diverge
  | fuel + 1, s, input, dst =>
    let r := c.call s false input Lib.bzip2.chunk
    (Ran.assert ndebug (r.rc = .ok ∨ r.rc = .streamEnd)).bind fun _ =>
    if Lib.bzip2.chunk - r.out.length = 0 then bunzipInner ndebug c fuel r.next (input.drop r.used) (dst ++ r.out)
    else .val (r.rc, input.drop r.used, r.next, dst ++ r.out)

/-- The outer loop of `bz2_decompress` (pgpbzip2.cpp:73-91). -/
def bunzipOuter (ndebug : Bool) (c : Coder σ) (src : Bytes) (len : Nat) : (fuel : Nat) → σ → Nat → Bytes → Ran Bytes
  | 0, _, _, _ => .diverge
  | fuel + 1, s, index, dst =>
    let n := takeIn Lib.bzip2.chunk len index
    (handIn src index n).bind fun input =>
    (bunzipInner ndebug c fuel s input dst).bind fun r =>
    (Ran.assert ndebug (r.2.1 = [])).bind fun _ =>
    if r.1 = .streamEnd then .val r.2.2.2
    else bunzipOuter ndebug c src len fuel r.2.2.1 ((index + n) % 2 ^ 32) r.2.2.2

/-- `bz2_decompress` (pgpbzip2.cpp:51-94). -/
def bunzipRun (ndebug : Bool) (c : Coder σ) (src : Bytes) (fuel : Nat) : Ran (Bool × Bytes) :=
  match c.init with
  | none => .ub
  | some s => (bunzipOuter ndebug c src (src.length % 2 ^ 32) fuel s 0 []).bind fun dst => .val (true, dst)

/-- The five streams `Compression::compress` and `decompress` open, by window size and library (Compress.cpp:18-26 and 46-54). -/
structure Coders (σ τ : Type) where
  deflateRaw : Coder σ
  deflateZlib : Coder σ
  bzip : Coder σ
  inflateRaw : Coder τ
  inflateZlib : Coder τ
  bunzip : Coder τ

/-- `Compression::compress` on data it compresses, algorithms 1 to 3 (Compress.cpp:12-39). -/
def Coders.compressRun (ndebug : Bool) (cs : Coders σ τ) (alg : UInt8) (src : Bytes) (fuel : Nat) : Ran (Bool × Bytes) :=
  if alg = 1 then OpenPGP.compressRun ndebug .zlib cs.deflateRaw src fuel
  else if alg = 2 then OpenPGP.compressRun ndebug .zlib cs.deflateZlib src fuel
  else OpenPGP.compressRun ndebug .bzip2 cs.bzip src fuel

/-- `Compression::decompress`, algorithms 1 to 3 (Compress.cpp:41-67). -/
def Coders.decompressRun (ndebug : Bool) (cs : Coders σ τ) (alg : UInt8) (src : Bytes) (fuel : Nat) : Ran (Bool × Bytes) :=
  if alg = 1 then inflateRun ndebug cs.inflateRaw src fuel
  else if alg = 2 then inflateRun ndebug cs.inflateZlib src fuel
  else bunzipRun ndebug cs.bunzip src fuel

/-- A run comes to `r`: it does so whenever it is given enough steps. -/
def Ran.To {α : Type} (run : Nat → Ran α) (r : Ran α) : Prop := ∃ n, ∀ fuel, n ≤ fuel → run fuel = r

/-- How `Compression::compress` and `decompress` end (Compress.cpp:33-37, 61-65): anything but `Z_OK`/`BZ_OK` is thrown. `Out` has no
constructor for a failed assertion; it is counted as `ub`. -/
def Ran.out : Ran (Bool × Bytes) → Out Bytes
  | .val (true, dst) => .ok dst
  | .val (false, _) => .throw
  | .abort => .ub
  | .ub => .ub
  | .diverge => .diverge

open Classical in
/-- What a run comes to, whatever number of steps that takes. -/
noncomputable def Ran.outcome (run : Nat → Ran (Bool × Bytes)) : Out Bytes :=
  if h : ∃ r, Ran.To run r then h.choose.out else .diverge

/-- The compression the rest of the library sees. -/
noncomputable def Coders.zip (ndebug : Bool) (cs : Coders σ τ) : Zip :=
  ⟨fun alg src => Ran.outcome (cs.compressRun ndebug alg src), fun alg src => Ran.outcome (cs.decompressRun ndebug alg src)⟩

end OpenPGP
