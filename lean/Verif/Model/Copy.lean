import Verif.Model.Packets

/-!
# Copying objects: copy constructors, `clone()`, assignment

Packets, subpackets, attributes and specifiers are objects in memory that `std::shared_ptr` points to. A pointer is an address; memory is a list of objects, and objects
are not removed from it (an object that nothing points to any more is never looked at).
-/
namespace OpenPGP

/-- `std::shared_ptr`: an address is a number. -/
local macro "Addr" : term => `(Nat)

/-- Objects. Pointers are members of signatures (Tag2.h:152-165), subpackets of type 32 (Sub32.h), user attributes (Tag17.h), and session key and secret key packets
(Tag3.h, Tag5.h); all other members are values. `plain` is a packet of any other class. The `size` members, which only `show` looks at, are left out. -/
inductive Cell where
  | s2k (s : S2K)
  | text (b : Bytes)
  | attr (a : Attr)
  | sub (s : Sub Addr)
  | sig (fmt : Fmt) (t : Tag2 Empty) (hashed unhashed : List Addr)
  | skesk (fmt : Fmt) (version sym : UInt8) (s2k esk : Option Addr)
  | secret (fmt : Fmt) (subkey : Bool) (key : KeyPkt) (con sym : UInt8) (s2k : Option Addr) (iv secret : Bytes)
  | userAttr (fmt : Fmt) (l : List Addr)
  | plain (p : Pkt Empty)

abbrev Heap := List Cell

/-- The pointer of a subpacket. -/
def SubBody.pointers : SubBody Addr → List Addr
  | .embedded (some e) => [e]
  | _ => []

/-- The pointers in an object. -/
def Cell.pointers : Cell → List Addr
  | .sub s => s.body.pointers
  | .sig _ _ h u => h ++ u
  | .skesk _ _ _ s e => s.toList ++ e.toList
  | .secret _ _ _ _ _ s _ _ => s.toList
  | .userAttr _ l => l
  | _ => []

/-! ## What an object holds -/

/-- The contents of a subpacket, for what the pointer to an embedded signature points to. -/
def SubBody.value {A B : Type} (f : A → Option B) : SubBody A → Option (SubBody B)
  | .sigTime t => some (.sigTime t)
  | .sigExpire t => some (.sigExpire t)
  | .exportable b => some (.exportable b)
  | .trust l a => some (.trust l a)
  | .regex r => some (.regex r)
  | .revocable b => some (.revocable b)
  | .keyExpire t => some (.keyExpire t)
  | .placeholder s => some (.placeholder s)
  | .prefSym s => some (.prefSym s)
  | .revKey c p f => some (.revKey c p f)
  | .issuer k => some (.issuer k)
  | .notation f m n => some (.notation f m n)
  | .prefHash s => some (.prefHash s)
  | .prefComp s => some (.prefComp s)
  | .keyServerPrefs s => some (.keyServerPrefs s)
  | .prefKeyServer s => some (.prefKeyServer s)
  | .primary b => some (.primary b)
  | .policy s => some (.policy s)
  | .keyFlags s => some (.keyFlags s)
  | .signer s => some (.signer s)
  | .reason c w => some (.reason c w)
  | .features s => some (.features s)
  | .target p a d => some (.target p a d)
  | .embedded none => some (.embedded none)
  | .embedded (some e) => (f e).map fun v => .embedded (some v)

/-- The subpacket at an address. -/
def subAt {B : Type} (f : Addr → Option B) (h : Heap) (a : Addr) : Option (Sub B) :=
  match h[a]? with
  | some (.sub s) => (s.body.value f).map fun b => ⟨s.critical, b⟩
  | _ => none

/-- The signature at an address, if embedded signatures nest at most `n` levels. -/
def sigAt (h : Heap) : (n : Nat) → Addr → Option (SigAt n)
  | 0, _ => none
  | n + 1, a =>
    match h[a]? with
    | some (.sig _ t hs us) =>
      match hs.mapM (subAt (sigAt h n) h), us.mapM (subAt (sigAt h n) h) with
      | some hashed, some unhashed => some (⟨t.version, t.type, t.pka, t.hash, t.mpi, t.left16, t.time, t.keyid, hashed, unhashed⟩ : Tag2 (SigAt n))
      | _, _ => none
    | _ => none

/-- The specifier at an address. -/
def s2kAt (h : Heap) (a : Addr) : Option S2K :=
  match h[a]? with
  | some (.s2k s) => some s
  | _ => none

/-- The string at an address. -/
def textAt (h : Heap) (a : Addr) : Option Bytes :=
  match h[a]? with
  | some (.text b) => some b
  | _ => none

/-- The image at an address. -/
def attrAt (h : Heap) (a : Addr) : Option Attr :=
  match h[a]? with
  | some (.attr s) => some s
  | _ => none

/-- A pointer that may be null. -/
def ptrAt {B : Type} (f : Addr → Option B) : Option Addr → Option (Option B)
  | none => some none
  | some a => (f a).map some

/-- The contents of a packet of a class without pointers. -/
def Body.plain {E : Type} : Body Empty → Option (Body E)
  | .pkesk t => some (.pkesk t)
  | .onePass t => some (.onePass t)
  | .publicKey k => some (.publicKey k)
  | .publicSubkey k => some (.publicSubkey k)
  | .compressed c d => some (.compressed c d)
  | .symEnc d => some (.symEnc d)
  | .marker m => some (.marker m)
  | .literal t => some (.literal t)
  | .trust t => some (.trust t)
  | .userId u => some (.userId u)
  | .seip v d => some (.seip v d)
  | .mdc m => some (.mdc m)
  | .priv n s => some (.priv n s)
  | _ => none

/-- The packet at an address: everything that can be seen of it through member functions that do not change it. -/
def pktAt (h : Heap) (n : Nat) (a : Addr) : Option (Pkt (SigAt n)) :=
  match h[a]? with
  | some (.sig fmt t hs us) =>
    match hs.mapM (subAt (sigAt h n) h), us.mapM (subAt (sigAt h n) h) with
    | some hashed, some unhashed => some ⟨fmt, false, .sig ⟨t.version, t.type, t.pka, t.hash, t.mpi, t.left16, t.time, t.keyid, hashed, unhashed⟩⟩
    | _, _ => none
  | some (.skesk fmt v s k e) =>
    match ptrAt (s2kAt h) k, ptrAt (textAt h) e with
    | some k, some e => some ⟨fmt, false, .skesk ⟨v, s, k, e⟩⟩
    | _, _ => none
  | some (.secret fmt subkey key con sym k iv secret) =>
    match ptrAt (s2kAt h) k with
    | some k => some ⟨fmt, false, if subkey then .secretSubkey ⟨key, con, sym, k, iv, secret⟩ else .secretKey ⟨key, con, sym, k, iv, secret⟩⟩
    | none => none
  | some (.userAttr fmt l) => (l.mapM (attrAt h)).map fun l => ⟨fmt, false, .userAttr l⟩
  | some (.plain p) => p.body.plain.map fun b => ⟨p.fmt, p.part, b⟩
  | _ => none

/-! ## Copying -/

/-- `std::make_shared`. -/
def alloc (h : Heap) (c : Cell) : Out (Addr × Heap) := .ok (h.length, h ++ [c])

/-- Copying each of a list of pointers (for instance Tag2.cpp:494-500, 506-512, PGP.cpp:548-554). -/
def cloneList (f : Heap → Addr → Out (Addr × Heap)) : Heap → List Addr → Out (List Addr × Heap)
  | h, [] => .ok ([], h)
  | h, a :: as => do
    let (a', h) ← f h a
    let (as', h) ← cloneList f h as
    return (a' :: as', h)

/-- `p ? p -> clone() : nullptr`. -/
def clonePtr (f : Heap → Addr → Out (Addr × Heap)) (h : Heap) : Option Addr → Out (Option Addr × Heap)
  | none => .ok (none, h)
  | some a => do
    let (a', h) ← f h a
    return (some a', h)

/-- `S2K0::clone`, `S2K1::clone`, `S2K3::clone` (s2k.cpp:111-113, 184-186, 270-272), `std::make_shared <std::string> (*esk)` (Tag3.cpp:109-111) and
`Subpacket::Tag17::Sub1::clone` (Tag17/Sub1.cpp:89-91): a new object with the same members. -/
def cloneFlat (h : Heap) (a : Addr) : Out (Addr × Heap) :=
  match h[a]? with
  | some (.s2k s) => alloc h (.s2k s)
  | some (.text b) => alloc h (.text b)
  | some (.attr s) => alloc h (.attr s)
  | _ => .ub

/-- `clone()` of the subpackets: the members are copied (for instance Sub2.cpp:44-46), the embedded signature is cloned (Sub32.cpp:31-35, 53-62). -/
def cloneSub (f : Heap → Addr → Out (Addr × Heap)) (h : Heap) (a : Addr) : Out (Addr × Heap) :=
  match h[a]? with
  | some (.sub s) =>
    match s.body with
    | .embedded (some e) => do
      let (e', h) ← f h e
      alloc h (.sub ⟨s.critical, .embedded (some e')⟩)
    | _ => alloc h (.sub s)
  | _ => .ub

/-- `Tag2::clone` (Tag2.cpp:658-663): the copy constructor (Tag2.cpp:369-380) clones the subpackets, then `clone` does so again and drops the first clones. -/
def cloneSig : (n : Nat) → Heap → Addr → Out (Addr × Heap)
  | 0, _, _ => .diverge
  | n + 1, h, a =>
    match h[a]? with
    | some (.sig fmt t hs us) => do
      let (_, h) ← cloneList (cloneSub (cloneSig n)) h hs
      let (_, h) ← cloneList (cloneSub (cloneSig n)) h us
      let (hs', h) ← cloneList (cloneSub (cloneSig n)) h hs
      let (us', h) ← cloneList (cloneSub (cloneSig n)) h us
      alloc h (.sig fmt t hs' us')
    | _ => .ub

/-- `clone()` of the packets: Tag2.cpp:658-663, Tag3.cpp:77-82 and 159-165, Tag5.cpp:225-234 and 451-455, Tag7.cpp:32-36, Tag17.cpp:59-66 and 98-100; the other
classes copy their members (Tag1.cpp:118-120, Tag4.cpp:109-111, Tag6.cpp:69-71, Tag8.cpp:118-120, Tag9.cpp:63-65, Tag10.cpp:34-37 and 53-55, Tag11.cpp:139-141,
Tag12.cpp:28-31 and 47-49, Tag13.cpp:60-62, Tag14.cpp:10-12 and 20-22, Tag18.cpp:65-67, Tag19.cpp:48-50, Tag60.cpp:42-44). The first clones of `Tag3` and `Tag5`
members, which are dropped at once, are left out. -/
def clonePkt (n : Nat) (h : Heap) (a : Addr) : Out (Addr × Heap) :=
  match h[a]? with
  | some (.sig _ _ _ _) => cloneSig (n + 1) h a
  | some (.skesk fmt v s k e) => do
    let (k, h) ← clonePtr cloneFlat h k
    let (e, h) ← clonePtr cloneFlat h e
    alloc h (.skesk fmt v s k e)
  | some (.secret fmt subkey key con sym k iv secret) => do
    let (k, h) ← clonePtr cloneFlat h k
    alloc h (.secret fmt subkey key con sym k iv secret)
  | some (.userAttr fmt l) => do
    let (l, h) ← cloneList cloneFlat h l
    alloc h (.userAttr fmt l)
  | some (.plain p) => alloc h (.plain p)
  | _ => .ub

/-- `PGP::get_packets_clone` (PGP.cpp:548-554) and with it the copy constructors and assignments of `PGP`, keys, messages and signatures (PGP.cpp:307-312, 606-612,
Key.cpp:19-25, 538-544, 569-580, 601-607, Message.cpp:157-160, CleartextSignature.cpp:16-20, 275-280, DetachedSignature.cpp:11-17, RevocationCertificate.cpp:11-17);
the other members are values. -/
def clonePkts (n : Nat) (h : Heap) (ps : List Addr) : Out (List Addr × Heap) := cloneList (clonePkt n) h ps

/-- `Tag3::operator=` (Tag3.cpp:167-173): both pointers are followed, null or not. -/
def assignSkesk (h : Heap) (dst src : Addr) : Out Heap :=
  match h[dst]?, h[src]? with
  | some (.skesk _ _ _ _ _), some (.skesk fmt v s (some k) (some e)) => do
    let (k, h) ← cloneFlat h k
    let (e, h) ← cloneFlat h e
    return h.set dst (.skesk fmt v s (some k) (some e))
  | some (.skesk _ _ _ _ _), some (.skesk _ _ _ _ _) => .ub
  | _, _ => .ub

/-- `Sub32::set_embedded` (Sub32.cpp:53-58). -/
def setEmbedded (n : Nat) (h : Heap) (sub : Addr) (e : Option Addr) (copy : Bool) : Out Heap :=
  match h[sub]? with
  | some (.sub s) => do
    let (e, h) ← (match e with
      | some e => if copy then .ok (some e, h) else clonePtr (cloneSig n) h (some e)
      | none => .ok (none, h))
    return h.set sub (.sub ⟨s.critical, .embedded e⟩)
  | _ => .ub

end OpenPGP
