import Verif.Model.Packets
import Verif.Model.Armor
import Verif.Model.Cleartext

/-!
# Reading into an object that already holds something

`Tag::read` (Packet.cpp:89-105), `PGP::read` and `CleartextSignature::read` are public members: they can be called on an
object that has been read or set before.  The readers of `Model/Packets.lean` give what a *new* object holds afterwards.
Here the same functions are statements working on an object: they give the outcome and the object as it is left, also
when an exception leaves it half-read.  The position is returned instead of being changed in place.
-/
namespace OpenPGP

/-- Statements working on an object of type `σ`: how they end, and the object afterwards. -/
def Into (σ α : Type) : Type := σ → Out α × σ

namespace Into
variable {σ τ α β : Type}

/-- One statement after the other; after an exception the object stays as it is. -/
@[reducible] def bind (x : Into σ α) (f : α → Into σ β) : Into σ β := fun s =>
  match x s with
  | (.ok a, s) => f a s
  | (.throw, s) => (.throw, s)
  | (.ub, s) => (.ub, s)
  | (.diverge, s) => (.diverge, s)

instance : Monad (Into σ) where
  pure a := fun s => (.ok a, s)
  bind := bind

/-- An expression that does not touch the object. -/
def eval (x : Out α) : Into σ α := fun s => (x, s)

/-- `set_field(expression)`: the object is changed when the expression has a value. -/
def assign (x : Out α) (f : α → σ → σ) : Into σ α := fun s =>
  match x with
  | .ok a => (.ok a, f a s)
  | .throw => (.throw, s)
  | .ub => (.ub, s)
  | .diverge => (.diverge, s)

/-- Statements working on one member of an object. -/
def on (get : σ → τ) (set : τ → σ → σ) (x : Into τ α) : Into σ α := fun s =>
  match x (get s) with
  | (r, t) => (r, set t s)

end Into

open Into

/-- `mpi.push_back(read_MPI(data, pos))`, several times (Tag2.cpp:127-146, 167-178, Key.cpp:53-54, 62-77). -/
def pushMPIs (data : Bytes) : (count pos : Nat) → Into (List Nat) Nat
  | 0, pos => pure pos
  | n + 1, pos => do
    let r ← assign (readMPI data pos) fun r l => l ++ [r.1]
    pushMPIs data n r.2

/-- `while (pos < stop) push_back(item)` (Tag1.cpp:11-13, Tag17.cpp:8-26). -/
def pushUntil {α : Type} (item : Nat → Out (α × Nat)) (stop : Nat) : (fuel pos : Nat) → Into (List α) Nat
  | 0, _ => eval .diverge
  | fuel + 1, pos =>
    if pos < stop then do
      let r ← assign (item pos) fun r l => l ++ [r.1]
      pushUntil item stop fuel r.2
    else pure pos

/-- `Tag1::actual_read` (Tag1.cpp:6-14). -/
def Tag1.readInto (data : Bytes) (pos length : Nat) : Into Tag1 Nat := do
  let _ ← assign (charAt data pos) fun v t => { t with version := v }
  let _ ← assign (substr data (pos + 1) 8) fun k t => { t with keyid := k }
  let _ ← assign (charAt data (pos + 9)) fun p t => { t with pka := p }
  on Tag1.mpi (fun m t => { t with mpi := m }) (pushUntil (readMPI data) length (length + 1) (pos + 10))

/-- One pass of the loop of `Tag2::read_subpackets` (Tag2.cpp:13-108). -/
def readSubItem {E : Type} (readE : Bytes → Out E) (data : Bytes) (pos : Nat) : Out (Sub E × Nat) := do
  let (len, pos) ← readSubLength data pos
  let c ← charAt data pos
  match SubBody.default (c &&& 0x7f).toNat with
  | none => .throw
  | some fresh => do
    let d ← substr data (pos + 1) (subSz len 1)
    let body ← SubBody.read readE fresh d
    return (⟨c &&& 0x80 != 0, body⟩, pos + len)

/-- `Tag2::read_subpackets(data, subpackets)` (Tag2.cpp:8-110): the list is emptied first. -/
def subpacketsInto {E : Type} (readE : Bytes → Out E) (data : Bytes) : Into (List (Sub E)) Nat := do
  let _ ← assign (.ok ()) fun _ _ => []
  pushUntil (readSubItem readE data) data.length (data.length + 1) 0

namespace Tag2
variable {E : Type}

/-- Version 3 branch of `Tag2::actual_read` (Tag2.cpp:115-145). -/
def readV3Into (data : Bytes) (pos : Nat) : Into (Tag2 E) Nat := do
  let five ← eval (charAt data (pos + 1))
  if five ≠ 5 then eval .throw
  else do
    let _ ← assign (charAt data (pos + 2)) fun x s => { s with type := x }
    let _ ← assign (substr data (pos + 3) 4) fun t s => { s with time := toint256 t % 2 ^ 32 }
    let k ← eval (substr data (pos + 7) 8)
    if k.length ≠ 8 then eval .throw
    else do
      let _ ← assign (.ok k) fun k s => { s with keyid := k }
      let pka ← assign (charAt data (pos + 15)) fun x s => { s with pka := x }
      let _ ← assign (charAt data (pos + 16)) fun x s => { s with hash := x }
      let _ ← assign (substr data (pos + 17) 2) fun x s => { s with left16 := x }
      if isRSA pka then on Tag2.mpi (fun m s => { s with mpi := m }) (pushMPIs data 1 19)
      else if pka = 17 then on Tag2.mpi (fun m s => { s with mpi := m }) (pushMPIs data 2 19)
      else eval .throw

/-- Version 4 branch of `Tag2::actual_read` (Tag2.cpp:146-184). -/
def readV4Into (readE : Bytes → Out E) (data : Bytes) (pos : Nat) : Into (Tag2 E) Nat := do
  let _ ← assign (charAt data (pos + 1)) fun x s => { s with type := x }
  let pka ← assign (charAt data (pos + 2)) fun x s => { s with pka := x }
  let _ ← assign (charAt data (pos + 3)) fun x s => { s with hash := x }
  let pos := pos + 4
  let h2 ← eval (substr data pos 2)
  let hsize := toint256 h2 % 2 ^ 16
  let pos := pos + 2
  let hs ← eval (substr data pos hsize)
  let _ ← on Tag2.hashed (fun l s => { s with hashed := l }) (subpacketsInto readE hs)
  let pos := pos + hsize
  let u2 ← eval (substr data pos 2)
  let usize := toint256 u2 % 2 ^ 16
  let pos := pos + 2
  let us ← eval (substr data pos usize)
  let _ ← on Tag2.unhashed (fun l s => { s with unhashed := l }) (subpacketsInto readE us)
  let pos := pos + usize
  let _ ← assign (substr data pos 2) fun x s => { s with left16 := x }
  let pos := pos + 2
  on Tag2.mpi (fun m s => { s with mpi := m }) (pushMPIs data (if pka = 17 then 2 else 1) pos)

/-- `Tag2::actual_read` (Tag2.cpp:112-189). -/
def readInto (readE : Bytes → Out E) (data : Bytes) (pos _len : Nat) : Into (Tag2 E) Nat := do
  let version ← assign (charAt data pos) fun v s => { s with version := v }
  if version = 3 then readV3Into data pos
  else if version = 4 then readV4Into readE data pos
  else eval .throw

end Tag2

/-- Salt of a string-to-key specifier (s2k.cpp:137-141, 160-166): what `set` does with it happens only for 8 octets. -/
def saltInto {σ : Type} (data : Bytes) (pos : Nat) (set : Bytes → σ → σ) : Into σ Bytes :=
  assign (S2K.readSalt data pos) set

/-- A new specifier of the kind the first octet asks for, which then reads itself (Tag3.cpp:10-28, Tag5.cpp:9-22,
s2k.cpp:24-28, 137-141, 210-214). For an unknown kind the object keeps the specifier it has. -/
def s2kInto (data : Bytes) (pos : Nat) : Into (Option S2K) Nat := do
  let type ← eval (charAt data pos)
  if type = 0 then do
    let _ ← assign (charAt data (pos + 1)) fun h _ => some (.simple h)
    pure (pos + 2)
  else if type = 1 then do
    let h ← assign (charAt data (pos + 1)) fun h _ => some (.salted h [])
    let _ ← saltInto data (pos + 2) fun salt _ => some (.salted h salt)
    pure (pos + 10)
  else if type = 3 then do
    let h ← assign (charAt data (pos + 1)) fun h _ => some (.iterated h [] 0)
    let salt ← saltInto data (pos + 2) fun salt _ => some (.iterated h salt 0)
    let _ ← assign (charAt data (pos + 10)) fun c _ => some (.iterated h salt c)
    pure (pos + 11)
  else eval .throw

/-- `Tag3::actual_read` (Tag3.cpp:6-35): `esk` is only set when octets are left. -/
def Tag3.readInto (data : Bytes) (orig length : Nat) : Into Tag3 Nat := do
  let _ ← assign (charAt data orig) fun v t => { t with version := v }
  let _ ← assign (charAt data (orig + 1)) fun x t => { t with sym := x }
  let pos ← on Tag3.s2k (fun x t => { t with s2k := x }) (s2kInto data (orig + 2))
  if pos < orig + length then do
    let _ ← assign (substr data pos (orig + length - pos)) fun e t => { t with esk := some e }
    pure (orig + length)
  else pure (orig + length)

/-- `Tag4::actual_read` (Tag4.cpp:6-14). -/
def Tag4.readInto (data : Bytes) (pos _length : Nat) : Into Tag4 Nat := do
  let _ ← assign (charAt data pos) fun x t => { t with version := x }
  let _ ← assign (charAt data (pos + 1)) fun x t => { t with type := x }
  let _ ← assign (charAt data (pos + 2)) fun x t => { t with hash := x }
  let _ ← assign (charAt data (pos + 3)) fun x t => { t with pka := x }
  let k ← eval (substr data (pos + 4) 8)
  let _ ← assign (Tag4.checkKeyid k) fun x t => { t with keyid := x }
  let _ ← assign (charAt data (pos + 12)) fun x t => { t with last := x }
  pure (pos + 13)

/-- `Key::read_common` (Key.cpp:45-109). The expiry is touched for versions below 4 only, the rest for versions up to
4. -/
def KeyPkt.readInto (data : Bytes) (pos : Nat) : Into KeyPkt Nat := do
  let version ← assign (charAt data pos) fun v k => { k with version := v }
  let _ ← assign (substr data (pos + 1) 4) fun t k => { k with time := toint256 t % 2 ^ 32 }
  if version < 4 then do
    let a ← eval (charAt data (pos + 5))
    let _ ← assign (charAt data (pos + 6)) fun b k => { k with expire := KeyPkt.expireOf a b }
    let _ ← assign (charAt data (pos + 7)) fun p k => { k with pka := p }
    on KeyPkt.mpi (fun m k => { k with mpi := m }) (pushMPIs data 2 (pos + 8))
  else if version = 4 then do
    let pka ← assign (charAt data (pos + 5)) fun p k => { k with pka := p }
    match KeyPkt.mpiCount pka with
    | none => eval .throw
    | some n => on KeyPkt.mpi (fun m k => { k with mpi := m }) (pushMPIs data n (pos + 6))
  else pure pos

/-- `Tag5::actual_read` (Tag5.cpp:25-57): cipher and specifier are only touched when the usage octet says that they
follow, the initialisation vector when it is not 0; `read_s2k` drops the old specifier first. -/
def Tag5.readInto (data : Bytes) (orig length : Nat) : Into Tag5 Nat := do
  let pos ← on Tag5.key (fun k t => { t with key := k }) (KeyPkt.readInto data orig)
  let con ← assign (charAt data pos) fun c t => { t with s2kCon := c }
  let pos := pos + 1
  let sp ← (if Tag5.hasS2K con then do
      let sym ← assign (charAt data pos) fun x t => { t with sym := x }
      let _ ← assign (.ok ()) fun _ t => { t with s2k := none }
      let pos ← on Tag5.s2k (fun x t => { t with s2k := x }) (s2kInto data (pos + 1))
      pure (sym, pos)
    else if con ≠ 0 then do
      let _ ← assign (.ok con) fun x t => { t with sym := x }
      pure (con, pos)
    else pure (con, pos) : Into Tag5 (UInt8 × Nat))
  let pos ← (if con ≠ 0 then do
      let bs ← eval (mapAt (blockLen sp.1))
      let iv ← assign (substr data sp.2 bs) fun x t => { t with iv := x }
      pure (sp.2 + iv.length)
    else pure sp.2 : Into Tag5 Nat)
  let _ ← assign (substr data pos (subSz length (pos - orig))) fun x t => { t with secret := x }
  pure (orig + length)

/-- `Tag8::actual_read`, `Tag18::actual_read` (Tag8.cpp:17-23, Tag18.cpp:6-10). -/
def octetStringInto (data : Bytes) (pos length : Nat) : Into (UInt8 × Bytes) Nat := do
  let _ ← assign (charAt data pos) fun c t => (c, t.2)
  let _ ← assign (substr data (pos + 1) (subSz length 1)) fun s t => (t.1, s)
  pure (pos + length)

/-- Readers that take the whole body (Tag9.cpp:6-9, Tag10.cpp:8-11, Tag12.cpp:6-9, Tag13.cpp:6-9, Tag19.cpp:6-9,
Tag60.cpp:6-9 ..). -/
def stringInto (data : Bytes) (pos length : Nat) : Into Bytes Nat := do
  let _ ← assign (substr data pos length) fun s _ => s
  pure (pos + length)

/-- `Tag11::actual_read` (Tag11.cpp:15-22). -/
def Tag11.readInto (data : Bytes) (pos length : Nat) : Into Tag11 Nat := do
  let _ ← assign (charAt data pos) fun x t => { t with format := x }
  let len ← eval (charAt data (pos + 1))
  let _ ← assign (substr data (pos + 2) len.toNat) fun x t => { t with filename := x }
  let _ ← assign (substr data (pos + 2 + len.toNat) 4) fun x t => { t with time := toint256 x % 2 ^ 32 }
  let _ ← assign (substr data (pos + 2 + len.toNat + 4) (subSz length (2 + len.toNat + 4))) fun x t => { t with literal := x }
  pure (pos + length)

/-- `Tag17::actual_read` (Tag17.cpp:6-27). -/
def attrsInto (data : Bytes) (pos length : Nat) : Into (List Attr) Nat :=
  pushUntil (Attr.readItem data) length (length + 1) pos

/-- `Tag::read` (Packet.cpp:89-100): an empty body leaves the object alone. -/
def tagInto {σ : Type} (actual : Bytes → Nat → Nat → Into σ Nat) (span : Span) : Into σ Unit :=
  if span.length = 0 then pure ()
  else do
    let pos ← actual span.src span.start span.length
    if pos ≠ span.start + span.length then eval .throw else pure ()

/-- The readers of one class, on an object of that class. -/
def inBody {E σ : Type} (mk : σ → Body E) (old : σ) (x : Into σ Unit) : Out Unit × Body E :=
  ((x old).1, mk (x old).2)

namespace Body
variable {E : Type}

/-- `packet.read(data, pos, length)` on an existing packet object (Packet.cpp:89-100 with `actual_read` of its class). -/
def readInto (readE : Bytes → Out E) (span : Span) : Body E → Out Unit × Body E
  | pkesk t => inBody pkesk t (tagInto Tag1.readInto span)
  | sig s => inBody sig s (tagInto (Tag2.readInto readE) span)
  | skesk t => inBody skesk t (tagInto Tag3.readInto span)
  | onePass t => inBody onePass t (tagInto Tag4.readInto span)
  | secretKey t => inBody secretKey t (tagInto Tag5.readInto span)
  | publicKey k => inBody publicKey k (tagInto (fun d p _ => KeyPkt.readInto d p) span)
  | secretSubkey t => inBody secretSubkey t (tagInto Tag5.readInto span)
  | compressed c d => inBody (fun x => compressed x.1 x.2) (c, d) (tagInto octetStringInto span)
  | symEnc d => inBody symEnc d (tagInto stringInto span)
  | marker p => inBody marker p (tagInto stringInto span)
  | literal t => inBody literal t (tagInto Tag11.readInto span)
  | trust t => inBody trust t (tagInto stringInto span)
  | userId u => inBody userId u (tagInto stringInto span)
  | publicSubkey k => inBody publicSubkey k (tagInto (fun d p _ => KeyPkt.readInto d p) span)
  | userAttr l => inBody userAttr l (tagInto attrsInto span)
  | seip v d => inBody (fun x => seip x.1 x.2) (v, d) (tagInto octetStringInto span)
  | mdc h => inBody mdc h (tagInto stringInto span)
  | priv n s => inBody (priv n) s (tagInto stringInto span)

/-- Reading one body after the other into the same object, as long as nothing is thrown. -/
def readAll (readE : Bytes → Out E) : List Span → Body E → Out (Body E)
  | [], b => .ok b
  | s :: l, b =>
    match readInto readE s b with
    | (.ok _, b) => readAll readE l b
    | (.throw, _) => .throw
    | (.ub, _) => .ub
    | (.diverge, _) => .diverge

end Body

/-- `PGP::read` (PGP.cpp:333-467) with `read_raw` (PGP.cpp:469-483): the object also when it is left by an exception. The
type is set while the header line is compared, the packets are dropped when the octets are there. -/
def pgpInto {α : Type} (body : Nat → Fmt → Span → Out α) (data : Bytes) : Into (PgpObj α) Unit :=
  let packetsInto (d : Bytes) : Into (PgpObj α) Nat := do
    let _ ← assign (.ok ()) fun _ o => { o with packets := [] }
    on PgpObj.packets (fun ps o => { o with packets := ps }) (pushUntil (readPacket body d) d.length (d.length + 1) 0)
  match findBegin (getlines data) with
  | none => do
    let _ ← packetsInto data
    let _ ← assign (.ok ()) fun _ o => { o with armored := false, type := 0 }
  | some (line, rest) => do
    let t ← assign (.ok (armorType line 1 ((armorHeaders.drop 1).take 6))) fun t o => { o with type := t }
    if t = 7 then eval .throw
    else do
      let _ ← assign (.ok ()) fun _ o => { o with keys := o.keys ++ (armorKeys rest).1 }
      let bc := armorBody [] [] (armorKeys rest).2
      let d ← eval (armorDecode bc.1 bc.2)
      let _ ← packetsInto d
      let _ ← assign (.ok ()) fun _ o => { o with armored := true }

end OpenPGP
