import Verif.Model.Edit
import Verif.Model.Cleartext

/-!
# Setters that store a value

For each class the calls of its setters, and what a call does to an object. `set_version` is inherited from `Packet::Tag` (Packet.cpp:163-165), `set_critical` from
`Subpacket::Sub` (Subpacket.cpp:97-99). Setters that throw leave the object as it was. The number behind `size` is not modelled (Packet.h:136 says that it is correct
only after `read`).
-/
namespace OpenPGP
variable {E : Type}

/-- A run of calls on an object, exceptions being caught. -/
def runCalls {C O : Type} (call : C → O → O) (o : O) (calls : List C) : O := calls.foldl (fun o c => call c o) o

namespace Tag1

inductive Call where
  | version (v : UInt8) | keyid (k : Bytes) | pka (p : UInt8) | mpi (m : List Nat)

/-- Tag1.cpp:106-116. -/
def call : Call → Tag1 → Tag1
  | .version v, t => { t with version := v }
  | .keyid k, t => { t with keyid := k }
  | .pka p, t => { t with pka := p }
  | .mpi m, t => { t with mpi := m }

end Tag1

namespace Tag2

inductive Call (E : Type) where
  | version (v : UInt8) | type (t : UInt8) | pka (p : UInt8) | hash (h : UInt8) | left16 (l : Bytes) | mpi (m : List Nat) | time (t : Nat) | keyid (k : Bytes)
  | hashed (l : List (Sub E)) | unhashed (l : List (Sub E))

/-- Tag2.cpp:549-629. The subpackets that are set are copied; null pointers among them are not modelled. -/
def call : Call E → Tag2 E → Tag2 E
  | .version v, t => { t with version := v }
  | .type x, t => { t with type := x }
  | .pka p, t => { t with pka := p }
  | .hash h, t => { t with hash := h }
  | .left16 l, t => { t with left16 := l }
  | .mpi m, t => { t with mpi := m }
  | .time x, t => t.setTime x
  | .keyid k, t => match t.setKeyid k with
    | .ok t' => t'
    | _ => t
  | .hashed l, t => { t with hashed := l }
  | .unhashed l, t => { t with unhashed := l }

end Tag2

namespace Tag3

/-- `set_esk` takes a string or a pointer that may be null. -/
inductive Call where
  | version (v : UInt8) | sym (s : UInt8) | s2k (s : Option S2K) | esk (e : Bytes) | eskPtr (e : Option Bytes)

/-- Tag3.cpp:124-149. -/
def call : Call → Tag3 → Tag3
  | .version v, t => { t with version := v }
  | .sym s, t => { t with sym := s }
  | .s2k s, t => match t.setS2K s with
    | .ok t' => t'
    | _ => t
  | .esk e, t => { t with esk := some e }
  | .eskPtr (some e), t => { t with esk := some e }
  | .eskPtr none, t => t

end Tag3

namespace Tag4

inductive Call where
  | version (v : UInt8) | type (t : UInt8) | hash (h : UInt8) | pka (p : UInt8) | keyid (k : Bytes) | last (n : UInt8)

/-- Tag4.cpp:86-108. -/
def call : Call → Tag4 → Tag4
  | .version v, t => { t with version := v }
  | .type x, t => { t with type := x }
  | .hash h, t => { t with hash := h }
  | .pka p, t => { t with pka := p }
  | .keyid k, t => match checkKeyid k with
    | .ok k => { t with keyid := k }
    | _ => t
  | .last n, t => { t with last := n }

end Tag4

namespace KeyPkt

inductive Call where
  | version (v : UInt8) | time (t : Nat) | expire (t : Nat) | pka (p : UInt8) | mpi (m : List Nat)

/-- Packets/Key.cpp:211-225. -/
def call : Call → KeyPkt → KeyPkt
  | .version v, k => { k with version := v }
  | .time t, k => { k with time := t }
  | .expire t, k => { k with expire := t }
  | .pka p, k => { k with pka := p }
  | .mpi m, k => { k with mpi := m }

/-- `Key::get_expire` (Packets/Key.cpp:194-201). -/
def getExpire (k : KeyPkt) : Out Nat := if k.version < 4 then .ok k.expire else .throw

end KeyPkt

namespace Tag5

inductive Call where
  | key (c : KeyPkt.Call) | s2kCon (c : UInt8) | sym (s : UInt8) | s2k (s : S2K) | iv (i : Bytes) | secret (s : Bytes)

/-- Tag5.cpp:281-348. -/
def call : Call → Tag5 → Tag5
  | .key c, t => { t with key := KeyPkt.call c t.key }
  | .s2kCon c, t => { t with s2kCon := c }
  | .sym s, t => { t with sym := s }
  | .s2k s, t => { t with s2k := some s }
  | .iv i, t => { t with iv := i }
  | .secret s, t => { t with secret := s }

/-- `Tag5::set_s2k` (Tag5.cpp:305-324) with a pointer that may be null. -/
def setS2K (t : Tag5) : Option S2K → Out Tag5
  | none => .ub
  | some s => .ok (call (.s2k s) t)

end Tag5

namespace Tag11

inductive Call where
  | format (f : UInt8) | filename (f : Bytes) | time (t : Nat) | literal (l : Bytes)

/-- Tag11.cpp:119-133. -/
def call : Call → Tag11 → Tag11
  | .format f, t => { t with format := f }
  | .filename f, t => { t with filename := f }
  | .time x, t => { t with time := x }
  | .literal l, t => { t with literal := l }

end Tag11

namespace Attr

/-- `Sub1::Sub1` (Tag17/Sub1.cpp:47-53). -/
def fresh : Attr := ⟨false, 0, 0, []⟩

inductive Call where
  | critical (c : Bool) | version (v : UInt8) | encoding (e : UInt8) | image (i : Bytes)

/-- Tag17/Sub1.cpp:77-87. -/
def call : Call → Attr → Attr
  | .critical c, a => { a with critical := c }
  | .version v, a => { a with version := v }
  | .encoding e, a => { a with encoding := e }
  | .image i, a => { a with image := i }

end Attr

namespace SubBody

/-- The setters of the subpackets; a subpacket has those of its own class only, see `has`. -/
inductive Call (E : Type) where
  | number (n : Nat) | flag (b : Bool) | level (l : UInt8) | amount (a : UInt8) | text (s : Bytes) | regex (r : Bytes) | cls (c : UInt8) | pka (p : UInt8)
  | fingerprint (f : Bytes) | flags (f : Bytes) | name (m : Bytes) | value (n : Bytes) | code (c : UInt8) | why (w : Bytes) | hashAlg (h : UInt8) | hash (h : Bytes)
  | sig (e : E)

/-- The setters a subpacket has: `set_time`, `set_dt` (`number`: Sub2.cpp, Sub3.cpp, Sub9.cpp), `set_exportable`, `set_revocable`, `set_primary` (`flag`: Sub4.cpp, Sub7.cpp, Sub25.cpp),
`set_level`, `set_amount` (Sub5.cpp:47-53), `set_regex` (Sub6.cpp:48-55), `set_stuff`, `set_psa`, `set_keyid`, `set_pha`, `set_pca`, `set_flags`, `set_pks`, `set_uri`, `set_signer`
(`text`: Sub10.cpp, Sub11.cpp, Sub16.cpp, Sub21.cpp, Sub22.cpp, Sub23.cpp, Sub24.cpp, Sub26.cpp, Sub27.cpp, Sub28.cpp, Sub30.cpp), `set_class`, `set_pka`, `set_fingerprint` (Sub12.cpp:66-76), `set_flags`, `set_m`, `set_n` (Sub20.cpp:70-80),
`set_code`, `set_reason` (Sub29.cpp:56-62), `set_pka`, `set_hash_alg`, `set_hash` (Sub31.cpp:65-75) and `set_embedded` (Sub32.cpp). Other calls do not compile and are modelled as doing nothing. -/
def call : Call E → SubBody E → SubBody E
  | .number n, sigTime _ => sigTime n
  | .number n, sigExpire _ => sigExpire n
  | .number n, keyExpire _ => keyExpire n
  | .flag b, exportable _ => exportable b
  | .flag b, revocable _ => revocable b
  | .flag b, primary _ => primary b
  | .level l, trust _ a => trust l a
  | .amount a, trust l _ => trust l a
  | .regex r, regex _ => regex (stripNul r)
  | .text s, placeholder _ => placeholder s
  | .text s, prefSym _ => prefSym s
  | .text s, issuer _ => issuer s
  | .text s, prefHash _ => prefHash s
  | .text s, prefComp _ => prefComp s
  | .text s, keyServerPrefs _ => keyServerPrefs s
  | .text s, prefKeyServer _ => prefKeyServer s
  | .text s, policy _ => policy s
  | .text s, keyFlags _ => keyFlags s
  | .text s, signer _ => signer s
  | .text s, features _ => features s
  | .cls c, revKey _ p f => revKey c p f
  | .pka p, revKey c _ f => revKey c p f
  | .fingerprint f, revKey c p _ => revKey c p f
  | .flags f, «notation» _ m n => «notation» f m n
  | .name m, «notation» f _ n => «notation» f m n
  | .value n, «notation» f m _ => «notation» f m n
  | .code c, reason _ w => reason c w
  | .why w, reason c _ => reason c w
  | .pka p, target _ h s => target p h s
  | .hashAlg h, target p _ s => target p h s
  | .hash s, target p h _ => target p h s
  | .sig e, embedded _ => embedded (some e)
  | _, b => b

end SubBody

namespace Msg

/-- `Message::get_comp` (Message.cpp:269-274). -/
def getComp (m : Msg E) : UInt8 :=
  match m.comp with
  | some (_, _, c) => c
  | none => 0

/-- `Message::set_comp` (Message.cpp:276-282): a new compressed packet without data (Packet.cpp:76-81, Tag8.cpp:58-63), to which `Tag8::set_comp` gives the number. -/
def setComp (z : Zip) (m : Msg E) (c : UInt8) : Out Unit × Msg E :=
  if c = 0 then (.ok (), { m with comp := none })
  else
    let r := Tag8.setComp z ⟨0, []⟩ c
    (r.1, { m with comp := some (.new, false, r.2.comp) })

end Msg

/-- `Tag8::set_body` (Tag8.cpp:109-112): how the call ends and the object it leaves. -/
def Tag8.setBody (z : Zip) (rawE : E → Bytes) (t : Tag8) (m : Msg E) : Out Unit × Tag8 :=
  match m.raw z rawE with
  | .ok d => t.setData z d
  | .throw => (.throw, t)
  | .ub => (.ub, t)
  | .diverge => (.diverge, t)

/-- `Tag8::get_body` (Tag8.cpp:88-92). `depth` as in `Msg.readLoop`. -/
def Tag8.getBody (z : Zip) (readE : Bytes → Out E) (depth : Nat) (t : Tag8) : Out (Msg E) := do
  let d ← t.getData z
  Msg.readRaw z readE depth d

/-- The setters of `PGP` (PGP.cpp:556-570). -/
inductive PgpCall (P : Type) where
  | armored (a : Bool) | type (t : Nat) | keys (k : List (Bytes × Bytes)) | packets (p : List P)

def PgpObj.call {P : Type} : PgpCall P → PgpObj P → PgpObj P
  | .armored a, o => { o with armored := a }
  | .type t, o => { o with type := t }
  | .keys k, o => { o with keys := k }
  | .packets p, o => { o with packets := p }

/-! ## Kinds of packets -/

/-- `is_primary_key`, `is_subkey`, `is_key_packet`, `is_public`, `is_secret`, `is_user`, `is_session_key`, `is_sym_protected_data` (Packet.cpp:11-48). -/
def isPrimaryKey (t : Nat) : Bool := t = 5 || t = 6
def isSubkey (t : Nat) : Bool := t = 7 || t = 14
def isKeyPacket (t : Nat) : Bool := isPrimaryKey t || isSubkey t
def isPublic (t : Nat) : Bool := t = 6 || t = 14
def isSecret (t : Nat) : Bool := t = 5 || t = 7
def isUser (t : Nat) : Bool := t = 13 || t = 17
def isSessionKey (t : Nat) : Bool := t = 1 || t = 3
def isSymProtectedData (t : Nat) : Bool := t = 9 || t = 18

end OpenPGP
