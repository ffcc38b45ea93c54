import Verif.Model.Compress

/-!
# What zlib and bzip2 promise

The manuals of the two libraries, as statements about every history of calls a client may make. `Form d z` says that the octets `z`
are one complete compressed form of the octets `d`. Only calls that offer room for output are considered.
-/
namespace OpenPGP

variable {σ : Type}

/-- Where a stream that compresses is: still taking input, asked to finish with some input left, or complete. -/
inductive Phase where
  | running
  | finishing (rest : Bytes)
  | ended
  deriving DecidableEq

/-- All histories of a stream that compresses: it got the octets `x` and put out the octets `y`. After the first call that asks to
finish, the input is what that call left over. -/
inductive Coder.Compressing (c : Coder σ) (start : σ) : σ → (x y : Bytes) → Phase → Prop where
  | start : c.Compressing start start [] [] .running
  | run {s x y} (input : Bytes) {room : Nat} : c.Compressing start s x y .running → 0 < room →
      c.Compressing start (c.call s false input room).next (x ++ input.take (c.call s false input room).used)
        (y ++ (c.call s false input room).out) .running
  | finish {s x y ph} (input : Bytes) {room : Nat} : c.Compressing start s x y ph → (ph = .running ∨ ph = .finishing input) → 0 < room →
      c.Compressing start (c.call s true input room).next (x ++ input.take (c.call s true input room).used)
        (y ++ (c.call s true input room).out)
        (if (c.call s true input room).rc = .streamEnd then .ended else .finishing (input.drop (c.call s true input room).used))

/-- What a call behind the end of a stream returns: zlib says again that the stream has ended; in bzip2 it is an error
("BZ_SEQUENCE_ERROR"). -/
def Lib.again : Lib → Rc
  | .zlib => .streamEnd
  | .bzip2 => .seqError

/-- The promises of `deflate` and `BZ2_bzCompress`. -/
structure Compressor (lib : Lib) (Form : Bytes → Bytes → Prop) (c : Coder σ) : Prop where
  /-- Streams can be opened. -/
  opens : ∃ s, c.init = some s
  /-- A call uses at most the input it is given and puts out at most what there is room for. -/
  sizes {start s x y ph} : c.init = some start → c.Compressing start s x y ph → ∀ finish input room, 0 < room →
    (ph = .running ∨ finish = true ∧ ph = .finishing input) →
    (c.call s finish input room).used ≤ input.length ∧ (c.call s finish input room).out.length ≤ room
  /-- Such a call is legal. -/
  legal {start s x y ph} : c.init = some start → c.Compressing start s x y ph → ∀ finish input room, 0 < room →
    (ph = .running ∨ finish = true ∧ ph = .finishing input) →
    (c.call s finish input room).rc ≠ lib.misuse
  /-- It stops only because the input is used up or the room is filled. -/
  busy {start s x y ph} : c.init = some start → c.Compressing start s x y ph → ∀ finish input room, 0 < room →
    (ph = .running ∨ finish = true ∧ ph = .finishing input) →
    (c.call s finish input room).out.length < room → (c.call s finish input room).used = input.length
  /-- Asked to finish, it finishes if there is room. -/
  finishes {start s x y ph} : c.init = some start → c.Compressing start s x y ph → ∀ input room, 0 < room →
    (ph = .running ∨ ph = .finishing input) →
    (c.call s true input room).out.length < room → (c.call s true input room).rc = .streamEnd
  /-- It says that the stream has ended only when asked to finish, and when what was put out is a compressed form of what was put in. -/
  complete {start s x y ph} : c.init = some start → c.Compressing start s x y ph → ∀ finish input room, 0 < room →
    (ph = .running ∨ finish = true ∧ ph = .finishing input) → (c.call s finish input room).rc = .streamEnd →
    finish = true ∧ (c.call s finish input room).used = input.length ∧ Form (x ++ input) (y ++ (c.call s finish input room).out)
  /-- bzip2 says that the stream has ended in the call that puts out the last octet of it: when it does not, there is more to come. -/
  eager {start s x y} : lib = .bzip2 → c.init = some start → ∀ input, c.Compressing start s x y (.finishing input) → ∀ room, 0 < room →
    (c.call s true input room).out ≠ []
  /-- The output is bounded in terms of the input. -/
  bounded : ∃ bound : Nat → Nat, Monotone bound ∧ ∀ {start s x y ph}, c.init = some start → c.Compressing start s x y ph →
    y.length ≤ bound x.length
  /-- Behind the end nothing happens. -/
  after {start s x y} : c.init = some start → c.Compressing start s x y .ended → ∀ room, 0 < room →
    (c.call s true [] room).rc = lib.again ∧ (c.call s true [] room).out = [] ∧ (c.call s true [] room).used = 0

/-- The codes after which a stream that decompresses can be used further. -/
def Lib.fine : Lib → Rc → Prop
  | .zlib, rc => rc = .ok ∨ rc = .bufError ∨ rc = .streamEnd
  | .bzip2, rc => rc = .ok ∨ rc = .streamEnd

/-- All histories of a stream that decompresses, as long as nothing went wrong: it used the octets `x` and put out the octets `y`;
`ended` says whether it reported the end. -/
inductive Coder.Decompressing (lib : Lib) (c : Coder σ) (start : σ) : σ → (x y : Bytes) → (ended : Bool) → Prop where
  | start : c.Decompressing lib start start [] [] false
  | step {s x y} (input : Bytes) {room : Nat} : c.Decompressing lib start s x y false → 0 < room →
      lib.fine (c.call s false input room).rc →
      c.Decompressing lib start (c.call s false input room).next (x ++ input.take (c.call s false input room).used)
        (y ++ (c.call s false input room).out) ((c.call s false input room).rc = .streamEnd)
  | idle {s x y} (input : Bytes) {room : Nat} : c.Decompressing lib start s x y true → 0 < room →
      c.Decompressing lib start (c.call s false input room).next x y true

/-- One octet string is the beginning of the other. -/
def Along (a b : Bytes) : Prop := a <+: b ∨ b <+: a

/-- The promises of `inflate` and `BZ2_bzDecompress`. -/
structure Decompressor (lib : Lib) (Form : Bytes → Bytes → Prop) (c : Coder σ) : Prop where
  opens : ∃ s, c.init = some s
  /-- No octets at all are not a complete stream. -/
  nonempty : ∀ d, ¬ Form d []
  sizes {start s x y} : c.init = some start → c.Decompressing lib start s x y false → ∀ input room, 0 < room →
    (c.call s false input room).used ≤ input.length ∧ (c.call s false input room).out.length ≤ room
  /-- The calls considered are legal: they go well, or the data is at fault, or there is no memory. -/
  legal {start s x y} : c.init = some start → c.Decompressing lib start s x y false → ∀ input room, 0 < room →
    lib.fine (c.call s false input room).rc ∨ (c.call s false input room).rc = .needDict ∨ (c.call s false input room).rc = .dataError ∨
      (c.call s false input room).rc = .memError
  /-- While no error is reported: a call that leaves room and does not report the end used up its input. -/
  busy {start s x y} : c.init = some start → c.Decompressing lib start s x y false → ∀ input room, 0 < room →
    lib.fine (c.call s false input room).rc → (c.call s false input room).rc ≠ .streamEnd →
    (c.call s false input room).out.length < room → (c.call s false input room).used = input.length
  /-- The end is reported only for a complete stream, when all it stands for was put out. -/
  sound {start s x y} : c.init = some start → c.Decompressing lib start s x y false → ∀ input room, 0 < room →
    (c.call s false input room).rc = .streamEnd →
    Form (y ++ (c.call s false input room).out) (x ++ input.take (c.call s false input room).used)
  /-- Fed with a complete stream, or part of one, it reports no error, uses nothing behind the stream and puts out what the stream
  stands for; -/
  reads {start s x y} : c.init = some start → c.Decompressing lib start s x y false → ∀ input room, 0 < room →
    ∀ d z, Form d z → Along (x ++ input) z →
    lib.fine (c.call s false input room).rc ∧ x ++ input.take (c.call s false input room).used <+: z ∧
      y ++ (c.call s false input room).out <+: d ∧
      ((c.call s false input room).rc = .streamEnd → y ++ (c.call s false input room).out = d ∧
        x ++ input.take (c.call s false input room).used = z)
  /-- given all of the stream, it reports the end when it has put out everything, whether there is room left or not, and it stops
  before that only for want of room. -/
  ends {start s x y} : c.init = some start → c.Decompressing lib start s x y false → ∀ input room, 0 < room →
    ∀ d z, Form d z → z <+: x ++ input →
    (y ++ (c.call s false input room).out = d ∨ (c.call s false input room).out.length < room) →
    (c.call s false input room).rc = .streamEnd
  bounded : ∃ bound : Nat → Nat, Monotone bound ∧ ∀ {start s x y e}, c.init = some start → c.Decompressing lib start s x y e →
    y.length ≤ bound x.length
  after {start s x y} : c.init = some start → c.Decompressing lib start s x y true → ∀ input room, 0 < room →
    (c.call s false input room).rc = lib.again ∧ (c.call s false input room).out = [] ∧ (c.call s false input room).used = 0

/-- The loop never comes to anything. -/
def Ran.Forever {α : Type} (run : Nat → Ran α) : Prop := ∀ fuel, run fuel = .diverge

end OpenPGP
